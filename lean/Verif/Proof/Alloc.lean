import Verif.Model.Alloc
import Mathlib.Tactic.SplitIfs
/-! # Clause buffer: which words an operation changes -/
namespace Varisat

theorem Header.words_len (h : Header) : h.words.length = 3 := rfl

theorem Header.ofWords_words (h : Header) : Header.ofWords h.words = h := by
  cases h with
  | mk d =>
    simp only [Header.ofWords, Header.words, Header.mk.injEq]
    funext i
    match i with
    | 0 => rfl
    | 1 => rfl
    | 2 => rfl

namespace Buf

theorem slice_get (ws : List Word) (i n j : Nat) : (slice ws i n)[j]? = if j < n then ws[i + j]? else none := by
  unfold slice
  rw [List.getElem?_take]
  split_ifs
  · rw [List.getElem?_drop]
  · rfl

theorem splice_get (ws : List Word) (i : Nat) (xs : List Word) (hi : i + xs.length ≤ ws.length) (j : Nat) :
    (splice ws i xs)[j]? = if i ≤ j ∧ j < i + xs.length then xs[j - i]? else ws[j]? := by
  unfold splice
  rw [List.append_assoc, List.getElem?_append, List.getElem?_append, List.getElem?_take, List.getElem?_drop, List.length_take,
    Nat.min_eq_left (by omega)]
  split_ifs <;> first | rfl | omega | (congr 1; omega)

theorem splice_len (ws : List Word) (i : Nat) (xs : List Word) (hi : i + xs.length ≤ ws.length) :
    (splice ws i xs).length = ws.length := by
  unfold splice
  simp only [List.length_append, List.length_take, List.length_drop]
  omega

theorem slice_splice_same (ws : List Word) (i : Nat) (xs : List Word) (hi : i + xs.length ≤ ws.length) :
    slice (splice ws i xs) i xs.length = xs := by
  apply List.ext_getElem?
  intro j
  rw [slice_get, splice_get _ _ _ hi]
  split_ifs
  · congr 1; omega
  · omega
  · rw [List.getElem?_eq_none (by omega)]

theorem slice_splice_other (ws : List Word) (i : Nat) (xs : List Word) (hi : i + xs.length ≤ ws.length) (k n : Nat)
    (hd : k + n ≤ i ∨ i + xs.length ≤ k) : slice (splice ws i xs) k n = slice ws k n := by
  apply List.ext_getElem?
  intro j
  rw [slice_get, slice_get, splice_get _ _ _ hi]
  split_ifs <;> first | rfl | omega

theorem slice_append (ws xs : List Word) (k n : Nat) (h : k + n ≤ ws.length) : slice (ws ++ xs) k n = slice ws k n := by
  apply List.ext_getElem?
  intro j
  rw [slice_get, slice_get]
  split_ifs
  · rw [List.getElem?_append_left (by omega)]
  · rfl

theorem slice_append_mid (ws xs ys : List Word) (k n : Nat) (hk : k = ws.length) (hn : n = xs.length) :
    slice (ws ++ xs ++ ys) k n = xs := by
  subst hk; subst hn
  apply List.ext_getElem?
  intro j
  rw [slice_get]
  split_ifs
  · rw [List.append_assoc, List.getElem?_append_right (by omega), List.getElem?_append_left (by omega)]
    congr 1; omega
  · rw [List.getElem?_eq_none (by omega)]

theorem slice_len (ws : List Word) (i n : Nat) (h : i + n ≤ ws.length) : (slice ws i n).length = n := by
  unfold slice; simp only [List.length_take, List.length_drop]; omega

/-- The first part of the words after overwriting. -/
theorem slice_splice_prefix (ws : List Word) (i : Nat) (xs : List Word) (hi : i + xs.length ≤ ws.length) (n : Nat)
    (hn : xs.length ≤ n) : slice (splice ws i xs) i n = xs ++ (slice ws i n).drop xs.length := by
  apply List.ext_getElem?
  intro j
  rw [slice_get, splice_get _ _ _ hi, List.getElem?_append, List.getElem?_drop, slice_get]
  split_ifs <;> first | rfl | omega | (congr 1; omega) | skip
  all_goals rw [List.getElem?_eq_none (by omega)]

/-- A region of the buffer holds the clause. -/
structure At (b : Buf) (c : Nat) (ext : Nat) (h : Header) (ls : List Word) : Prop where
  inside : c + headerLen + ext ≤ b.words.length
  len : h.len = ls.length
  le : ls.length ≤ ext
  hdr : slice b.words c headerLen = h.words
  lits : slice b.words (c + headerLen) ls.length = ls

variable {b b' : Buf} {c ext : Nat} {h : Header} {ls : List Word}

theorem At.header (a : At b c ext h ls) : b.header c = some h := by
  unfold Buf.header
  rw [if_pos (by have := a.inside; omega), a.hdr, Header.ofWords_words]

theorem At.clause (a : At b c ext h ls) : b.clause c = some (h, ls) := by
  unfold Buf.clause
  rw [a.header]
  simp only
  rw [if_pos (by have := a.inside; have := a.le; have := a.len; omega), a.len, a.lits]

theorem At.grow (a : At b c ext h ls) (xs : List Word) : At ⟨b.words ++ xs⟩ c ext h ls := by
  have hi := a.inside
  have hl := a.le
  refine ⟨?_, a.len, a.le, ?_, ?_⟩
  · simp only [List.length_append]; omega
  · rw [slice_append _ _ _ _ (by omega)]; exact a.hdr
  · rw [slice_append _ _ _ _ (by omega)]; exact a.lits

theorem At.new (b : Buf) (h : Header) (ls : List Word) (hl : h.len = ls.length) :
    At ⟨b.words ++ h.words ++ ls⟩ b.words.length ls.length h ls := by
  refine ⟨?_, hl, Nat.le_refl _, ?_, ?_⟩
  · simp only [Header.words, headerLen, List.length_append, List.length_cons, List.length_nil]; omega
  · exact slice_append_mid _ _ _ _ _ rfl rfl
  · have := slice_append_mid (b.words ++ h.words) ls [] (b.words.length + headerLen) ls.length (by simp [Header.words, headerLen]) rfl
    rw [List.append_nil] at this
    exact this

theorem At.hdrWrite (a : At b c ext h ls) (h' : Header) (hl : h'.len = ls.length) :
    At ⟨splice b.words c h'.words⟩ c ext h' ls := by
  have hi := a.inside
  have hi' : c + h'.words.length ≤ b.words.length := by rw [Header.words_len]; unfold headerLen at hi; omega
  refine ⟨?_, hl, a.le, ?_, ?_⟩
  · show _ ≤ (splice _ _ _).length
    rw [splice_len _ _ _ hi']; exact hi
  · exact slice_splice_same _ _ _ hi'
  · rw [slice_splice_other _ _ _ hi' _ _ (Or.inr (by rw [Header.words_len]; exact Nat.le_refl _))]; exact a.lits

theorem At.hdrShrink (a : At b c ext h ls) (h' : Header) (n : Nat) (hn : n ≤ ls.length) (hl : h'.len = n) :
    At ⟨splice b.words c h'.words⟩ c ext h' (ls.take n) := by
  have hi := a.inside
  have hle := a.le
  have hi' : c + h'.words.length ≤ b.words.length := by rw [Header.words_len]; unfold headerLen at hi; omega
  have hlen : (ls.take n).length = n := by rw [List.length_take]; omega
  refine ⟨?_, by rw [hlen]; exact hl, by omega, ?_, ?_⟩
  · show _ ≤ (splice _ _ _).length
    rw [splice_len _ _ _ hi']; exact hi
  · exact slice_splice_same _ _ _ hi'
  · rw [slice_splice_other _ _ _ hi' _ _ (Or.inr (by rw [Header.words_len]; exact Nat.le_refl _)), hlen]
    have e := congrArg (List.take n) a.lits
    unfold slice at e ⊢
    rw [List.take_take, Nat.min_eq_left hn] at e
    exact e

theorem At.litWrite (a : At b c ext h ls) (xs : List Word) (hx : xs.length ≤ ls.length) :
    At ⟨splice b.words (c + headerLen) xs⟩ c ext h (xs ++ ls.drop xs.length) := by
  have hi := a.inside
  have hle := a.le
  have hi' : c + headerLen + xs.length ≤ b.words.length := by omega
  have hlen : (xs ++ ls.drop xs.length).length = ls.length := by
    rw [List.length_append, List.length_drop]; omega
  refine ⟨?_, by rw [hlen]; exact a.len, by omega, ?_, ?_⟩
  · show _ ≤ (splice _ _ _).length
    rw [splice_len _ _ _ hi']; exact hi
  · rw [slice_splice_other _ _ _ hi' _ _ (Or.inl (Nat.le_refl _))]; exact a.hdr
  · rw [hlen, slice_splice_prefix _ _ _ hi' _ hx, a.lits]

theorem At.other (a : At b c ext h ls) {i : Nat} {xs : List Word} (hi : i + xs.length ≤ b.words.length)
    (hd : c + headerLen + ext ≤ i ∨ i + xs.length ≤ c) : At ⟨splice b.words i xs⟩ c ext h ls := by
  have hii := a.inside
  have hle := a.le
  refine ⟨?_, a.len, a.le, ?_, ?_⟩
  · show _ ≤ (splice _ _ _).length
    rw [splice_len _ _ _ hi]; exact hii
  · rw [slice_splice_other _ _ _ hi _ _ (by omega)]; exact a.hdr
  · rw [slice_splice_other _ _ _ hi _ _ (by omega)]; exact a.lits

end Buf
end Varisat
