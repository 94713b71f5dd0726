import Verif.Model.ProofFormat
import Verif.Props.C09_Vli
/-! Lemmas about the binary proof format. -/
namespace Varisat.Fmt
open Vli

/-- What all parsers built from reads satisfy. -/
structure Good {α : Type} (p : P α) : Prop where
  /-- the result does not depend on what follows -/
  mono : ∀ bs a rest, p bs = .ok (a, rest) → ∀ ext, p (bs ++ ext) = .ok (a, rest ++ ext)
  /-- the rest is a suffix of the input -/
  suffix : ∀ bs a rest, p bs = .ok (a, rest) → ∃ pre, bs = pre ++ rest
  /-- input not consumed is not looked at -/
  loc : ∀ pre q a pre', p (pre ++ q) = .ok (a, pre' ++ q) → p pre = .ok (a, pre')
  /-- a cut inside the consumed part is the end-of-file error -/
  eofy : ∀ pre q a rest, p (pre ++ q) = .ok (a, rest) → rest.length < q.length → p pre = .error .eof

theorem good_pure {α : Type} (a : α) : Good (P.pure a) where
  mono := by intro bs b rest h ext; simp only [P.pure, Except.ok.injEq, Prod.mk.injEq] at h ⊢; simp [h]
  suffix := by intro bs b rest h; simp only [P.pure, Except.ok.injEq, Prod.mk.injEq] at h; exact ⟨[], by simp [h]⟩
  loc := by
    intro pre q b pre' h; simp only [P.pure, Except.ok.injEq, Prod.mk.injEq] at h ⊢
    exact ⟨h.1, List.append_cancel_right h.2⟩
  eofy := by
    intro pre q b rest h hl; simp only [P.pure, Except.ok.injEq, Prod.mk.injEq] at h
    rw [← h.2, List.length_append] at hl; omega

theorem good_fail {α : Type} (e : ParseErr) : Good (P.fail (α := α) e) where
  mono := by intro bs b rest h; simp [P.fail] at h
  suffix := by intro bs b rest h; simp [P.fail] at h
  loc := by intro pre q b pre' h; simp [P.fail] at h
  eofy := by intro pre q b rest h; simp [P.fail] at h

theorem rd_ok {fill : Nat → Nat} {bs : Bytes} {a : Nat} {rest : Bytes} :
    rd fill bs = .ok (a, rest) ↔ readSpec bs = some (a, rest) := by
  unfold rd; rw [readU64_eq]
  cases readSpec bs with
  | none => simp
  | some r => simp

theorem rd_err {fill : Nat → Nat} {bs : Bytes} :
    rd fill bs = .error .eof ↔ readSpec bs = none := by
  unfold rd; rw [readU64_eq]
  cases readSpec bs with
  | none => simp
  | some r => simp

theorem readU64_spec {n : Nat} {bs : Bytes} : Vli.readU64 n bs = readSpec bs := readU64_eq n bs

theorem good_rd (fill : Nat → Nat) : Good (rd fill) where
  mono := by
    intro bs a rest h ext
    rw [rd_ok] at h ⊢; exact readSpec_append h ext
  suffix := by
    intro bs a rest h
    rw [rd_ok] at h
    obtain ⟨-, pre, h, -⟩ := readSpec_shape h
    exact ⟨pre, h⟩
  loc := by
    intro pre q a pre' h
    rw [rd_ok, ← readU64_spec (n := 0)] at h
    obtain ⟨-, p, hp, -, -, hm, -⟩ := C10.self_delimiting _ _ _ _ h
    rw [rd_ok, ← readU64_spec (n := 0)]
    have : pre = p ++ pre' := by
      rw [← List.append_assoc] at hp; exact List.append_cancel_right hp
    rw [this]; exact hm 0 pre'
  eofy := by
    intro pre q a rest h hl
    rw [rd_ok, ← readU64_spec (n := 0)] at h
    obtain ⟨-, p, hp, -, -, -, hm⟩ := C10.self_delimiting _ _ _ _ h
    rw [rd_err, ← readU64_spec (n := 0)]
    have hle : pre.length ≤ p.length := by
      have := congrArg List.length hp; simp only [List.length_append] at this; omega
    obtain ⟨m, hm'⟩ : ∃ m, p = pre ++ m := by
      have h1 : pre <+: pre ++ q := List.prefix_append _ _
      have h2 : p <+: pre ++ q := by rw [hp]; exact List.prefix_append _ _
      obtain ⟨m, hm⟩ := List.prefix_of_prefix_length_le h1 h2 hle
      exact ⟨m, hm.symm⟩
    refine hm 0 pre m hm' ?_
    rintro rfl
    have := congrArg List.length hp
    simp only [List.length_append, hm', List.append_nil] at this; omega

theorem good_bind {α β : Type} {p : P α} {f : α → P β} (hp : Good p) (hf : ∀ a, Good (f a)) :
    Good (p.bind f) where
  mono := by
    intro bs b rest h ext
    unfold P.bind at h ⊢
    split at h
    · rename_i a r he
      rw [hp.mono _ _ _ he ext]; exact (hf a).mono _ _ _ h ext
    · simp at h
  suffix := by
    intro bs b rest h
    unfold P.bind at h
    split at h
    · rename_i a r he
      obtain ⟨p1, h1⟩ := hp.suffix _ _ _ he
      obtain ⟨p2, h2⟩ := (hf a).suffix _ _ _ h
      exact ⟨p1 ++ p2, by rw [h1, h2, List.append_assoc]⟩
    · simp at h
  loc := by
    intro pre q b pre' h
    unfold P.bind at h ⊢
    split at h
    · rename_i a r he
      obtain ⟨p2, h2⟩ := (hf a).suffix _ _ _ h
      have e : r = (p2 ++ pre') ++ q := by rw [h2, List.append_assoc]
      rw [e] at he h
      rw [hp.loc _ _ _ _ he]
      exact (hf a).loc _ _ _ _ h
    · simp at h
  eofy := by
    intro pre q b rest h hl
    unfold P.bind at h ⊢
    split at h
    · rename_i a r he
      by_cases hr : r.length < q.length
      · rw [hp.eofy _ _ _ _ he hr]
      · obtain ⟨p1, h1⟩ := hp.suffix _ _ _ he
        obtain ⟨m, hm⟩ : ∃ m, r = m ++ q := by
          have h2 : r <:+ pre ++ q := ⟨p1, h1.symm⟩
          have h3 : q <:+ pre ++ q := List.suffix_append _ _
          obtain ⟨m, hm⟩ := List.suffix_of_suffix_length_le h3 h2 (by omega)
          exact ⟨m, hm.symm⟩
        rw [hm] at he h
        rw [hp.loc _ _ _ _ he]
        exact (hf a).eofy _ _ _ _ h hl
    · simp at h

theorem good_readN {α : Type} {p : P α} (hp : Good p) : ∀ n, Good (readN p n)
  | 0 => good_pure _
  | n + 1 => good_bind hp fun a => good_bind (good_readN hp n) fun as => good_pure _

theorem good_readLiterals (fill) : Good (readLiterals fill) :=
  good_bind (good_rd fill) fun _ => good_readN (good_bind (good_rd fill) fun _ => good_pure _) _
theorem good_readHashes (fill) : Good (readHashes fill) :=
  good_bind (good_rd fill) fun _ => good_readN (good_rd fill) _
theorem good_readUnits (fill) : Good (readUnits fill) :=
  good_bind (good_rd fill) fun _ =>
    good_readN (good_bind (good_rd fill) fun _ => good_bind (good_rd fill) fun _ => good_pure _) _

theorem good_ite {α : Type} {c : Prop} [Decidable c] {p q : P α} (hp : Good p) (hq : Good q) :
    Good (if c then p else q) := by
  by_cases h : c
  · rw [if_pos h]; exact hp
  · rw [if_neg h]; exact hq

theorem good_parseBody (fill) (code) : Good (parseBody fill code) := by
  unfold parseBody
  repeat' first
      | refine good_ite ?_ ?_
      | exact good_pure _
      | exact good_fail _
      | exact good_rd _
      | exact good_readLiterals _
      | exact good_readHashes _
      | exact good_readUnits _
      | refine good_bind ?_ ?_
      | intro _

theorem good_parseStep (fill) : Good (parseStep fill) :=
  good_bind (good_rd fill) fun _ => good_parseBody fill _

/-- A parsed step consumes at least one byte. -/
theorem parseStep_progress {fill bs s rest} (h : parseStep fill bs = .ok (s, rest)) :
    rest.length < bs.length := by
  unfold parseStep P.bind at h
  split at h
  · rename_i a r he
    rw [rd_ok] at he
    obtain ⟨-, pre, h1, h2, -⟩ := readSpec_shape he
    obtain ⟨p2, h3⟩ := (good_parseBody fill a).suffix _ _ _ h
    rw [h1, h3]; simp only [List.length_append]; omega
  · simp at h

/-- The buffering schedule is irrelevant. -/
theorem rd_fill (f g) : rd f = rd g := by
  funext bs; unfold rd; rw [readU64_eq, readU64_eq]

theorem parseStep_fill (f g) : parseStep f = parseStep g := by
  unfold parseStep parseBody readLiterals readHashes readUnits
  rw [rd_fill f g]

/-! ### Round trip -/

theorem rd_write (fill : Nat → Nat) (v : Nat) (hv : v < 2 ^ 64) (rest : Bytes) :
    rd fill (writeU64 v ++ rest) = .ok (v, rest) := by
  rw [rd_ok]; exact readSpec_writeU64 v hv rest

theorem readN_write {α : Type} (p : P α) (w : α → Bytes) (as : List α)
    (h : ∀ a ∈ as, ∀ rest, p (w a ++ rest) = .ok (a, rest)) (rest : Bytes) :
    readN p as.length (as.flatMap w ++ rest) = .ok (as, rest) := by
  induction as with
  | nil => rfl
  | cons a as ih =>
    have ih := ih (fun b hb => h b (List.mem_cons_of_mem _ hb))
    simp only [List.length_cons, readN, P.bind, List.flatMap_cons, List.append_assoc]
    rw [h a (List.mem_cons_self ..)]
    simp only [ih, P.pure]

theorem bind_ok {α β : Type} {p : P α} {f : α → P β} {bs rest a} (h : p bs = .ok (a, rest)) :
    P.bind p f bs = f a rest := by simp only [P.bind, h]

theorem readLiterals_write (fill) (ls : List Lit) (hl : ls.length < 2 ^ 64)
    (hc : ∀ l ∈ ls, l.code < 2 ^ 32) (rest : Bytes) :
    readLiterals fill (writeLiterals ls ++ rest) = .ok (ls, rest) := by
  unfold readLiterals writeLiterals
  rw [List.append_assoc, bind_ok (rd_write fill _ hl _)]
  apply readN_write
  intro l hm r
  have := hc l hm
  rw [bind_ok (rd_write fill _ (by omega) _)]
  simp only [P.pure, litOfU64, Nat.mod_eq_of_lt this]

theorem readHashes_write (fill) (hs : List Nat) (hl : hs.length < 2 ^ 64)
    (hc : ∀ h ∈ hs, h < 2 ^ 64) (rest : Bytes) :
    readHashes fill (writeHashes hs ++ rest) = .ok (hs, rest) := by
  unfold readHashes writeHashes
  rw [List.append_assoc, bind_ok (rd_write fill _ hl _)]
  exact readN_write _ _ _ (fun h hm r => rd_write fill h (hc h hm) r) rest

theorem readUnits_write (fill) (us : List (Lit × Nat)) (hl : us.length < 2 ^ 64)
    (hc : ∀ u ∈ us, u.1.code < 2 ^ 32 ∧ u.2 < 2 ^ 64) (rest : Bytes) :
    readUnits fill (writeUnits us ++ rest) = .ok (us, rest) := by
  unfold readUnits writeUnits
  rw [List.append_assoc, bind_ok (rd_write fill _ hl _)]
  apply readN_write
  intro u hm r
  have := hc u hm
  rw [List.append_assoc, bind_ok (rd_write fill _ (by omega) _), bind_ok (rd_write fill _ this.2 _)]
  simp only [P.pure, litOfU64, Nat.mod_eq_of_lt this.1]

end Varisat.Fmt
