import Verif.Model.Lrat
import Verif.Spec.Lrat
import Verif.Proof.Decimal
import Verif.Proof.Lit
/-!
# Lemmas about the LRAT and DRAT writers

The writer of LRAT files refines a machine `A` that keeps whole lines and one open deletion line.
-/
namespace Varisat
open Spec.Lrat
open Spec.Dimacs (isDigit digitsValue)

/-! ### Splitting and numbers -/

theorem split_sep {α : Type} [DecidableEq α] {sep : α} {w r : List α} (h : sep ∉ w) :
    split sep (w ++ sep :: r) = w :: split sep r := by
  induction w with
  | nil => simp [split]
  | cons b w ih =>
    simp only [List.mem_cons, not_or] at h
    simp only [List.cons_append, split, if_neg (Ne.symm h.1), ih h.2]

theorem split_none {α : Type} [DecidableEq α] {sep : α} {w : List α} (h : sep ∉ w) :
    split sep w = [w] := by
  induction w with
  | nil => simp [split]
  | cons b w ih =>
    simp only [List.mem_cons, not_or] at h
    simp only [split, if_neg (Ne.symm h.1), ih h.2]

/-- Words, each followed by a separator. -/
def sepd {α : Type} (sep : α) (ws : List (List α)) : List α := ws.flatMap (fun w => w ++ [sep])

theorem split_sepd {α : Type} [DecidableEq α] {sep : α} {ws : List (List α)} {r : List α}
    (h : ∀ w ∈ ws, sep ∉ w) : split sep (sepd sep ws ++ r) = ws ++ split sep r := by
  induction ws with
  | nil => rfl
  | cons w ws ih =>
    have : sepd sep (w :: ws) ++ r = w ++ sep :: (sepd sep ws ++ r) := by simp [sepd]
    rw [this, split_sep (h w (by simp)), ih (fun w hw => h w (by simp [hw]))]
    rfl

theorem untilZero_append {ws r : List Bytes} (h : ∀ w ∈ ws, w ≠ [48]) :
    untilZero (ws ++ [48] :: r) = some (ws, r) := by
  induction ws with
  | nil => simp [untilZero]
  | cons w ws ih =>
    simp only [List.cons_append, untilZero, if_neg (h w (by simp)),
      ih (fun w hw => h w (by simp [hw])), Option.map]

theorem mapM_map_some {α β γ : Type} {f : β → Option γ} {g : α → β} {k : α → γ} (l : List α)
    (h : ∀ x, f (g x) = some (k x)) : (l.map g).mapM f = some (l.map k) := by
  induction l with
  | nil => rfl
  | cons x l ih => simp [h, ih]

theorem mapM_map_some' {α β γ : Type} {f : β → Option γ} {g : α → β} {k : α → γ} (l : List α)
    (h : ∀ x ∈ l, f (g x) = some (k x)) : (l.map g).mapM f = some (l.map k) := by
  induction l with
  | nil => rfl
  | cons x l ih =>
    simp [h x (by simp), ih (fun y hy => h y (by simp [hy]))]

theorem nat?_decNat (n : Nat) : nat? (decNat n) = some n := by
  unfold nat?
  rw [if_pos ⟨decNat_ne n, by simpa using decNat_digits n⟩, digitsValue_decNat]

theorem id?_decNat (n : Nat) : id? (decNat (n + 1)) = some n := by simp [id?, nat?_decNat]

theorem decNat_head (n : Nat) : (decNat n).head? ≠ some 45 := by
  intro h
  exact (isDigit_ne (decNat_digits n 45 (List.mem_of_head? h))).2.2.2.2.2.1 rfl

theorem int?_decInt (n : Int) : int? (decInt n) = some n := by
  unfold decInt int?
  split
  · simp only [List.head?_cons, if_true, List.tail_cons, nat?_decNat, Option.map]
    congr 1; omega
  · rw [if_neg (decNat_head _), nat?_decNat]
    simp only [Option.map]
    congr 1; omega

theorem decNat_zero : decNat 0 = [48] := by rw [decNat]; simp

theorem decNat_inj {m n : Nat} (h : decNat m = decNat n) : m = n := by
  have := congrArg nat? h
  simpa [nat?_decNat] using this

theorem decInt_inj {m n : Int} (h : decInt m = decInt n) : m = n := by
  have := congrArg int? h
  simpa [int?_decInt] using this

theorem decInt_zero : decInt 0 = [48] := by unfold decInt; simp [decNat_zero]

theorem decNat_noSpace (n : Nat) : (32 : UInt8) ∉ decNat n ∧ (10 : UInt8) ∉ decNat n :=
  ⟨fun h => (isDigit_ne (decNat_digits n _ h)).2.2.1 rfl,
   fun h => (isDigit_ne (decNat_digits n _ h)).1 rfl⟩

theorem decInt_noSpace (n : Int) : (32 : UInt8) ∉ decInt n ∧ (10 : UInt8) ∉ decInt n :=
  ⟨fun h => (decInt_bytes n _ h).2.2.1 rfl, fun h => (decInt_bytes n _ h).1 rfl⟩

theorem toDimacs_ne (l : Lit) : l.toDimacs ≠ 0 := by
  unfold Lit.toDimacs; split <;> omega

/-! ### LEB128 -/

theorem lebs_leb (n : Nat) (r : Bytes) : lebs (leb n ++ r) = (lebs r).map (n :: ·) := by
  induction n using Nat.strongRecOn generalizing r with
  | _ n ih =>
    rw [leb]
    split
    · rename_i h
      have : (UInt8.ofNat n).toNat = n := by simp only [UInt8.toNat_ofNat']; omega
      simp only [List.cons_append, List.nil_append, lebs, this, if_pos h]
    · rename_i h
      have : (UInt8.ofNat (n % 128 + 128)).toNat = n % 128 + 128 := by
        simp only [UInt8.toNat_ofNat']; omega
      simp only [List.cons_append, lebs, this, ih (n / 128) (by omega)]
      rw [if_neg (by omega)]
      cases lebs r with
      | none => rfl
      | some ns => simp only [Option.map]; congr 2; omega

theorem lebs_flatMap {α : Type} (f : α → Nat) (l : List α) (r : Bytes) :
    lebs (l.flatMap (fun x => leb (f x)) ++ r) = (lebs r).map (l.map f ++ ·) := by
  induction l with
  | nil => cases h : lebs r <;> simp [h]
  | cons x l ih =>
    simp only [List.flatMap_cons, List.append_assoc, lebs_leb, ih, Option.map_map, List.map_cons]
    rfl

theorem lebs_byte (b : UInt8) (h : b.toNat < 128) (r : Bytes) :
    lebs (b :: r) = (lebs r).map (b.toNat :: ·) := by simp only [lebs, if_pos h]

theorem binId?_enc (id : Nat) : binId? ((id + 1) * 2) = some id := by
  unfold binId?; rw [if_pos (by omega)]; congr 1; omega

theorem binLit?_enc (l : Lit) : binLit? (l.code + 2) = some l.toDimacs := by
  unfold binLit? Lit.toDimacs Lit.isNeg Lit.var
  rw [if_neg (by omega)]
  rcases Nat.mod_two_eq_zero_or_one l.code with h | h
  · rw [if_pos (by omega)]; simp only [h]; congr 1; simp
  · rw [if_neg (by omega)]; simp only [h]; congr 1; simp

/-! ### The abstract writer -/
namespace Lrat
open Checker

/-- A finished line, with literals not yet turned into numbers. -/
inductive ALine
  | add (id : Nat) (lits : List Lit) (hints : List Nat)
  | del (stamp : Nat) (ids : List Nat)

def ALine.line (binary : Bool) : ALine → Line
  | .add id lits hints => .add id (lits.map Lit.toDimacs) hints
  | .del stamp ids => .del (if binary then none else some stamp) ids

def idWords (ids : List Nat) : List Bytes := ids.map (fun id => decNat (id + 1))
def litWords (ls : List Lit) : List Bytes := ls.map (fun l => decInt l.toDimacs)

/-- Words of a line before the last `0`. -/
def ALine.words : ALine → List Bytes
  | .add id lits hints => idWords [id] ++ (litWords lits ++ [48] :: idWords hints)
  | .del stamp ids => decNat (stamp + 1) :: [100] :: idWords ids

def ALine.body (a : ALine) : Bytes := sepd 32 a.words ++ [48]

/-- Numbers of a binary line, as zero terminated lists. -/
def ALine.lists : ALine → List (List Nat)
  | .add id lits hints =>
      [97 :: (id + 1) * 2 :: lits.map (fun l => l.code + 2), hints.map (fun id => (id + 1) * 2)]
  | .del _ ids => [100 :: ids.map (fun id => (id + 1) * 2)]

def nums (ns : List Nat) : Bytes := ns.flatMap leb

def ALine.bytes (binary : Bool) (a : ALine) : Bytes :=
  if binary then a.lists.flatMap (fun ns => nums ns ++ [0]) else a.body ++ [10]

/-- An open deletion line. -/
def openBytes (binary : Bool) : Option (Nat × List Nat) → Bytes
  | none => []
  | some (stamp, ids) =>
      if binary then nums (100 :: ids.map (fun id => (id + 1) * 2))
      else sepd 32 (ALine.del stamp ids).words

structure A where
  lines : List ALine := []
  opn : Option (Nat × List Nat) := none
  last : Nat := 0
  buf : List Nat := []

def A.toW (binary : Bool) (a : A) : W where
  binary := binary
  target := a.lines.flatMap (ALine.bytes binary) ++ openBytes binary a.opn
  deleteOpen := a.opn.isSome
  lastAddedId := a.last
  bufferedDeletes := a.buf

def A.del (a : A) (ids : List Nat) : A :=
  match a.opn with
  | none => { a with opn := some (a.last, ids) }
  | some (s, js) => { a with opn := some (s, js ++ ids) }

def A.close (a : A) : A :=
  match a.opn with
  | none => a
  | some (s, js) =>
    { a with
      lines := a.lines ++ [.del s js]
      opn := none }

def A.flush (a : A) : CheckedStep → A
  | .addClause .. | .duplicatedClause .. => a
  | _ => if a.buf ≠ [] then { a with buf := [] }.del a.buf else a

def A.skipped (binary : Bool) (a : A) (id : Nat) : A :=
  if binary then { a with last := id }.del [id]
  else
    { a with
      last := id
      buf := a.buf ++ [id] }

def A.write (binary : Bool) (a : A) : CheckedStep → A
  | .addClause id _ => { a with last := id }
  | .duplicatedClause id _ _ => a.skipped binary id
  | .tautologicalClause id _ => a.skipped binary id
  | .atClause id _ clause propagations =>
    { a.close with
      lines := a.close.lines ++ [.add id clause propagations]
      last := id }
  | .deleteAtClause id keep _ _ => if !keep then a.del [id] else a
  | .deleteRatClause id keep _ _ => if !keep then a.del [id] else a
  | .deleteClause id _ => a.del [id]
  | .userVar .. | .makeIrredundant .. | .model .. | .assumptions .. | .failedAssumptions .. => a

def A.op (binary : Bool) (a : A) : Op → A
  | .step s => (a.flush s).write binary s
  | .flush => a.close

theorem leb_tag {n : Nat} (h : n < 128) : leb n = [UInt8.ofNat n] := by rw [leb, if_pos h]

theorem flatMap_map' {α β γ : Type} (l : List α) (f : α → β) (g : β → List γ) :
    (l.map f).flatMap g = l.flatMap (fun x => g (f x)) := by
  induction l <;> simp_all

theorem toW_del (binary : Bool) (a : A) (ids : List Nat) :
    (a.toW binary).openDelete.writeIds ids = (a.del ids).toW binary := by
  rcases a with ⟨lines, opn, last, buf⟩
  cases opn with
  | none =>
    cases binary <;>
    simp [A.toW, A.del, W.openDelete, W.writeIds, W.put, W.writeDeleteStep, openBytes, sepd,
      ALine.words, idWords, nums, flatMap_map', leb_tag]
  | some o =>
    cases binary <;>
    simp [A.toW, A.del, W.openDelete, W.writeIds, W.put, openBytes, sepd,
      ALine.words, idWords, nums, flatMap_map']

theorem toW_close (binary : Bool) (a : A) :
    (a.toW binary).closeDelete = a.close.toW binary := by
  rcases a with ⟨lines, opn, last, buf⟩
  cases opn with
  | none => rfl
  | some o =>
    cases binary <;>
    simp [A.toW, A.close, W.closeDelete, W.writeEnd, W.put, openBytes, ALine.bytes, ALine.body,
      ALine.lists, sepd, nums]

theorem toW_flush (binary : Bool) (a : A) (s : CheckedStep) :
    (a.toW binary).flushBuffered s = (a.flush s).toW binary := by
  have h : (if (a.toW binary).bufferedDeletes ≠ [] then
        ({ a.toW binary with bufferedDeletes := [] }.openDelete).writeIds
          (a.toW binary).bufferedDeletes
      else a.toW binary) =
      (if a.buf ≠ [] then { a with buf := [] }.del a.buf else a).toW binary := by
    split
    · rename_i hb
      have hb' : a.buf ≠ [] := hb
      rw [if_pos hb']
      exact toW_del binary { a with buf := [] } a.buf
    · rename_i hb
      have hb' : ¬ a.buf ≠ [] := hb
      rw [if_neg hb']
  cases s <;> first | rfl | exact h

theorem toW_skipped (binary : Bool) (a : A) (id : Nat) :
    (a.toW binary).skipped id = (a.skipped binary id).toW binary := by
  cases binary
  · rfl
  · exact toW_del true { a with last := id } [id]

theorem close_opn (a : A) : a.close.opn = none := by
  rcases a with ⟨lines, opn, last, buf⟩; cases opn <;> rfl

theorem toW_add (binary : Bool) (a : A) (ha : a.opn = none) (id : Nat) (clause : List Lit)
    (ps : List Nat) :
    (((((({ a.toW binary with lastAddedId := id }.writeAddStep).writeIds [id]).writeLits
      clause).writeSep).writeIds ps).writeEnd) =
    ({ a with
      lines := a.lines ++ [.add id clause ps]
      last := id } : A).toW binary := by
  rcases a with ⟨lines, opn, last, buf⟩
  subst ha
  cases binary <;>
  simp [A.toW, W.writeAddStep, W.writeIds, W.writeLits, W.writeSep, W.writeEnd, W.put, openBytes,
    ALine.bytes, ALine.body, ALine.words, ALine.lists, sepd, nums, idWords, litWords,
    flatMap_map', leb_tag]

theorem toW_write (binary : Bool) (a : A) (s : CheckedStep) :
    (a.toW binary).writeStep s = (a.write binary s).toW binary := by
  cases s with
  | addClause id c => rfl
  | duplicatedClause id s c => exact toW_skipped binary a id
  | tautologicalClause id c => exact toW_skipped binary a id
  | atClause id r c ps =>
    simp only [W.writeStep, A.write, toW_close]
    exact toW_add binary a.close (close_opn a) id c ps
  | deleteClause id c => exact toW_del binary a [id]
  | deleteAtClause id keep c ps =>
    cases keep
    · exact toW_del binary a [id]
    · rfl
  | deleteRatClause id keep c p =>
    cases keep
    · exact toW_del binary a [id]
    · rfl
  | _ => rfl

theorem toW_op (binary : Bool) (a : A) (o : Op) :
    (a.toW binary).op o = (a.op binary o).toW binary := by
  cases o with
  | step s =>
    simp only [W.op, W.processStep, A.op, toW_flush, toW_write]
  | flush => exact toW_close binary a

theorem toW_ops (binary : Bool) (ops : List Op) (a : A) :
    ops.foldl W.op (a.toW binary) = (ops.foldl (A.op binary) a).toW binary := by
  induction ops generalizing a with
  | nil => rfl
  | cons o ops ih => simp only [List.foldl_cons, toW_op, ih]

/-- The writer's output is the finished lines. -/
theorem output_eq (binary : Bool) (ops : List Op) :
    output binary ops =
      ((ops.foldl (A.op binary) {}).close.lines).flatMap (ALine.bytes binary) := by
  have h0 : ({ binary := binary } : W) = ({} : A).toW binary := by
    simp [A.toW, openBytes]
  unfold output
  rw [h0, toW_ops, toW_close]
  simp [A.toW, close_opn, openBytes]

/-! ### Reading back -/

theorem words_noSpace (a : ALine) : ∀ w ∈ a.words, (32 : UInt8) ∉ w ∧ (10 : UInt8) ∉ w := by
  intro w hw
  cases a with
  | add id lits hints =>
    simp only [ALine.words, idWords, litWords, List.map_cons, List.map_nil, List.mem_append,
      List.mem_cons, List.mem_map, List.not_mem_nil, or_false] at hw
    rcases hw with rfl | ⟨l, _, rfl⟩ | rfl | ⟨i, _, rfl⟩
    · exact decNat_noSpace _
    · exact decInt_noSpace _
    · decide
    · exact decNat_noSpace _
  | del stamp ids =>
    simp only [ALine.words, idWords, List.mem_cons, List.mem_map] at hw
    rcases hw with rfl | rfl | ⟨i, _, rfl⟩
    · exact decNat_noSpace _
    · decide
    · exact decNat_noSpace _

theorem split_body (a : ALine) : split 32 a.body = a.words ++ [[48]] := by
  unfold ALine.body
  rw [split_sepd (fun w hw => (words_noSpace a w hw).1), split_none (by decide)]

theorem not_mem_sepd {b : UInt8} {ws : List Bytes} (hb : b ≠ 32) (h : ∀ w ∈ ws, b ∉ w) :
    b ∉ sepd 32 ws := by
  unfold sepd
  intro hm
  obtain ⟨w, hw, hm⟩ := List.mem_flatMap.1 hm
  simp only [List.mem_append, List.mem_singleton] at hm
  rcases hm with hm | hm
  · exact h w hw hm
  · exact hb hm

theorem body_noLf (a : ALine) : (10 : UInt8) ∉ a.body := by
  unfold ALine.body
  simp only [List.mem_append, List.mem_singleton, not_or]
  exact ⟨not_mem_sepd (by decide) (fun w hw => (words_noSpace a w hw).2), by decide⟩

theorem idWord_ne (id : Nat) : decNat (id + 1) ≠ [48] := by
  rw [← decNat_zero]; intro h; have := decNat_inj h; omega

theorem litWord_ne (l : Lit) : decInt l.toDimacs ≠ [48] := by
  rw [← decInt_zero]; intro h; exact toDimacs_ne l (decInt_inj h)

theorem idWords_ne (ids : List Nat) : ∀ w ∈ idWords ids, w ≠ [48] := by
  intro w hw
  obtain ⟨i, _, rfl⟩ := List.mem_map.1 hw
  exact idWord_ne i

theorem litWords_ne (ls : List Lit) : ∀ w ∈ litWords ls, w ≠ [48] := by
  intro w hw
  obtain ⟨i, _, rfl⟩ := List.mem_map.1 hw
  exact litWord_ne i

theorem decInt_ne_d (n : Int) : decInt n ≠ [100] := by
  intro h
  have := congrArg int? h
  rw [int?_decInt] at this
  have e : int? [100] = none := by decide
  rw [e] at this
  cases this

theorem mapM_idWords (ids : List Nat) : (idWords ids).mapM id? = some ids := by
  have := mapM_map_some (f := id?) (g := fun id => decNat (id + 1)) (k := id) ids id?_decNat
  simpa [idWords] using this

theorem mapM_litWords (ls : List Lit) : (litWords ls).mapM int? = some (ls.map Lit.toDimacs) :=
  mapM_map_some ls (fun l => int?_decInt l.toDimacs)

theorem textLine_body (a : ALine) : textLine a.body = some (a.line false) := by
  unfold textLine
  rw [split_body]
  cases a with
  | del stamp ids =>
    have h1 : untilZero (idWords ids ++ [[48]]) = some (idWords ids, []) :=
      untilZero_append (idWords_ne ids)
    simp [ALine.words, ALine.line, id?_decNat, h1, mapM_idWords]
  | add id lits hints =>
    have h1 : untilZero (litWords lits ++ [48] :: (idWords hints ++ [[48]])) =
        some (litWords lits, idWords hints ++ [[48]]) := untilZero_append (litWords_ne lits)
    have h2 : untilZero (idWords hints ++ [[48]]) = some (idWords hints, []) :=
      untilZero_append (idWords_ne hints)
    have hd : (litWords lits ++ [48] :: (idWords hints ++ [[48]])).head? ≠ some [100] := by
      cases lits with
      | nil => simp [litWords]
      | cons l ls =>
        simp only [litWords, List.map_cons, List.cons_append, List.head?_cons, ne_eq,
          Option.some.injEq]
        exact decInt_ne_d _
    have e : (ALine.add id lits hints).words ++ [[48]] =
        decNat (id + 1) :: (litWords lits ++ [48] :: (idWords hints ++ [[48]])) := by
      simp [ALine.words, idWords]
    rw [e]
    simp only [if_neg hd]
    simp [ALine.line, id?_decNat, h1, h2, mapM_idWords, mapM_litWords]

theorem fileLines_sepd {ls : List Bytes} (h : ∀ l ∈ ls, (10 : UInt8) ∉ l) :
    fileLines (sepd 10 ls) = some ls := by
  unfold fileLines
  have := split_sepd (r := []) h
  simp only [List.append_nil] at this
  rw [this]
  simp [split]

theorem readText_lines (ls : List ALine) :
    readText (ls.flatMap (ALine.bytes false)) = some (ls.map (ALine.line false)) := by
  have h : ls.flatMap (ALine.bytes false) = sepd 10 (ls.map ALine.body) := by
    simp only [sepd, flatMap_map']; rfl
  unfold readText
  rw [h, fileLines_sepd (by intro l hl; obtain ⟨a, _, rfl⟩ := List.mem_map.1 hl; exact body_noLf a)]
  exact mapM_map_some ls textLine_body

theorem lebs_nums (ns : List Nat) (r : Bytes) : lebs (nums ns ++ r) = (lebs r).map (ns ++ ·) := by
  have := lebs_flatMap id ns r
  simpa [nums] using this

theorem lebs_lists (ls : List (List Nat)) (r : Bytes) :
    lebs (ls.flatMap (fun ns => nums ns ++ [0]) ++ r) = (lebs r).map (sepd 0 ls ++ ·) := by
  induction ls with
  | nil => cases h : lebs r <;> simp [sepd, h]
  | cons ns ls ih =>
    have e : (0 : UInt8).toNat = 0 := rfl
    simp only [List.flatMap_cons, List.append_assoc, lebs_nums, List.cons_append, List.nil_append,
      lebs_byte 0 (by decide), ih, Option.map_map, e]
    cases lebs r <;> simp [sepd]

theorem lists_noZero (a : ALine) : ∀ ns ∈ a.lists, 0 ∉ ns := by
  intro ns hns
  cases a with
  | add id lits hints =>
    simp only [ALine.lists, List.mem_cons, List.not_mem_nil, or_false] at hns
    rcases hns with rfl | rfl
    · intro hm; simp at hm
    · intro hm; simp at hm
  | del stamp ids =>
    simp only [ALine.lists, List.mem_cons, List.not_mem_nil, or_false] at hns
    subst hns
    intro hm; simp at hm

theorem mapM_binIds (ids : List Nat) : (ids.map (fun id => (id + 1) * 2)).mapM binId? = some ids := by
  have := mapM_map_some (f := binId?) (g := fun id => (id + 1) * 2) (k := id) ids binId?_enc
  simpa using this

theorem mapM_binLits (ls : List Lit) :
    (ls.map (fun l => l.code + 2)).mapM binLit? = some (ls.map Lit.toDimacs) :=
  mapM_map_some ls binLit?_enc

theorem binLines_cons (a : ALine) (rest : List (List Nat)) :
    binLines (a.lists ++ rest) = (binLines rest).map (a.line true :: ·) := by
  cases a with
  | add id lits hints =>
    simp only [ALine.lists, List.cons_append, List.nil_append, binLines, binId?_enc, mapM_binIds,
      mapM_binLits, ALine.line]
    cases binLines rest <;> rfl
  | del stamp ids =>
    simp only [ALine.lists, List.cons_append, List.nil_append, binLines, mapM_binIds, ALine.line]
    cases binLines rest <;> rfl

theorem readBinary_lines (ls : List ALine) :
    readBinary (ls.flatMap (ALine.bytes true)) = some (ls.map (ALine.line true)) := by
  have h : ls.flatMap (ALine.bytes true) =
      (ls.flatMap ALine.lists).flatMap (fun ns => nums ns ++ [0]) ++ [] := by
    simp only [List.append_nil, List.flatMap_assoc]; rfl
  unfold readBinary
  rw [h, lebs_lists]
  have h2 : ∀ ns ∈ ls.flatMap ALine.lists, 0 ∉ ns := by
    intro ns hns
    obtain ⟨a, _, ha⟩ := List.mem_flatMap.1 hns
    exact lists_noZero a ns ha
  simp only [lebs, Option.map, Option.bind_eq_bind, Option.bind, List.append_nil]
  have := split_sepd (r := []) h2
  simp only [List.append_nil] at this
  rw [this]
  clear this h2 h
  induction ls with
  | nil => rfl
  | cons a ls ih =>
    simp only [List.flatMap_cons, List.append_assoc, binLines_cons, ih, Option.map, List.map_cons]

/-- Both formats. -/
theorem read_output (binary : Bool) (ops : List Op) :
    (if binary then readBinary else readText) (output binary ops) =
      some ((ops.foldl (A.op binary) {}).close.lines.map (ALine.line binary)) := by
  rw [output_eq]
  cases binary
  · exact readText_lines _
  · exact readBinary_lines _

end Lrat
end Varisat
