import Mathlib.Data.List.Forall2
import Verif.Model.ProofBuffer
import Verif.Proof.LratBuffer
/-!
# Proofs about proof output with its `BufWriter`

Every run is a run of `ProofOut` with an environment that has the results of the `BufWriter`. Beside that, what was written is in the
target or in the buffer.
-/
namespace Varisat.Out.Buf
open Lrat (Target)
open Lrat.Io (F M At Rel)

variable {d : Dev}

/-- The bytes of steps. -/
def enc (f : Format) (L : List ProofStep) : Bytes := L.flatMap (encode f)

theorem enc_append (f : Format) (K L : List ProofStep) : enc f (K ++ L) = enc f K ++ enc f L := List.flatMap_append

theorem putAll_at {t : Target} (cs : List Bytes) {f : F} {w : Lrat.W} (h : Rel f w) : At t True (putAll t cs) f (w.put cs.flatten) := by
  induction cs generalizing f w with
  | nil => exact .pure (by simpa [Lrat.W.put] using h)
  | cons c cs ih =>
    unfold putAll
    refine At.put c h ?_ fun f' h' => ?_
    · rw [List.flatten_cons, ← Lrat.Io.put_put]; exact Lrat.Io.W.put_prefix _ _
    · rw [List.flatten_cons, ← Lrat.Io.put_put]; exact ih h'

theorem discard_data (t : Target) (w : F) : (discard t w).data <+: w.data ++ w.buf := by
  unfold discard Lrat.Io.flushBuf
  rcases hd : Lrat.Io.drain t w.buf w.calls w.data with ⟨ok, rest, k', d'⟩
  have := (Lrat.Io.drain_spec _ _ _ hd).1
  cases ok <;> exact ⟨rest, this⟩

theorem discard_grows (t : Target) (w : F) : w.data <+: (discard t w).data := Lrat.Io.flushBuf_grows w

/-- Steps that have an encoding. -/
def Sup (f : Format) (L : List ProofStep) : Prop := f ≠ .varisat → ∀ st ∈ L, (Drat.steps st).isSome

theorem Sup.append {f : Format} {L : List ProofStep} (h : Sup f L) {st : ProofStep} (h' : f ≠ .varisat → (Drat.steps st).isSome) : Sup f (L ++ [st]) :=
  fun hf x hx => (List.mem_append.1 hx).elim (h hf x) fun hx => by rw [List.mem_singleton.1 hx]; exact h' hf

/-- The data of a former target: a beginning of what was written, and of one more step whose write failed. -/
def Left (data : Bytes) (x : File) : Prop :=
  ∃ tail : List ProofStep, tail.length ≤ 1 ∧ Sup x.format (x.written ++ tail) ∧ data <+: enc x.format (x.written ++ tail)

/-- The abstract writer of these steps. -/
def W (f : Format) (L : List ProofStep) : Lrat.W := { binary := false, target := enc f L }

structure Inv (b : B) : Prop where
  ios : b.s.ios = b.log.length
  files : List.Forall₂ Left b.files b.s.files
  cur : ∀ f, b.s.proof.format = some f → Rel b.w (W f b.s.proof.written)
  sup : ∀ f, b.s.proof.format = some f → Sup f b.s.proof.written
  new : b.s.proof.format = none → b.w = { binary := false } ∧ b.s.proof.written = []

/-- A write has failed. -/
structure Torn (b : B) : Prop where
  ios : b.s.ios = b.log.length
  files : List.Forall₂ Left b.files b.s.files
  cur : ∃ f tail, b.s.proof.format = some f ∧ tail.length ≤ 1 ∧ Sup f (b.s.proof.written ++ tail) ∧ b.w.data ++ b.w.buf <+: enc f (b.s.proof.written ++ tail)

theorem inv_new : Inv {} := ⟨rfl, .nil, nofun, nofun, fun _ => ⟨rfl, rfl⟩⟩

theorem rel_new (f : Format) : Rel { binary := false } (W f []) := Lrat.Io.rel_new false

theorem Inv.congr {b b' : B} (h : Inv b) (h1 : b'.s.ios = b.s.ios) (h2 : b'.log = b.log) (h3 : b'.files = b.files) (h4 : b'.s.files = b.s.files)
    (h5 : b'.w = b.w) (h6 : b'.s.proof.format = b.s.proof.format) (h7 : b'.s.proof.written = b.s.proof.written) : Inv b' :=
  ⟨by rw [h1, h2, h.ios], by rw [h3, h4]; exact h.files, by rw [h5, h6, h7]; exact h.cur, by rw [h6, h7]; exact h.sup, by rw [h5, h6, h7]; exact h.new⟩

theorem forall₂_left {data : List Bytes} {xs : List File} (h : List.Forall₂ Left data xs) {l : List Bytes} {ys : List File} (h' : List.Forall₂ Left l ys) :
    List.Forall₂ Left (data ++ l) (xs ++ ys) := List.rel_append h h'

theorem Inv.left {b : B} (h : Inv b) (d : Dev) : List.Forall₂ Left (b.left d) b.s.proof.file := by
  unfold B.left Proof.file
  cases hf : b.s.proof.format with
  | none => exact .nil
  | some f =>
    refine .cons ⟨[], by simp, ?_⟩ .nil
    rw [List.append_nil]
    refine ⟨h.sup f hf, ?_⟩
    have := (h.cur f hf).target
    show _ <+: enc f b.s.proof.written
    rw [show enc f b.s.proof.written = _ from this]
    exact discard_data _ _

theorem Torn.left {b : B} (h : Torn b) (d : Dev) : List.Forall₂ Left (b.left d) b.s.proof.file := by
  obtain ⟨f, tail, hf, ht, hs, hp⟩ := h.cur
  unfold B.left Proof.file
  rw [hf]
  exact .cons ⟨tail, ht, hs, (discard_data _ _).trans hp⟩ .nil

theorem Inv.drop {b : B} (h : Inv b) : Inv (b.drop d) :=
  ⟨h.ios, forall₂_left h.files (h.left d), nofun, nofun, fun _ => ⟨rfl, rfl⟩⟩

theorem Torn.fail {b : B} (h : Torn b) : Inv (fail d b) :=
  ⟨h.ios, forall₂_left h.files (h.left d), nofun, nofun, fun _ => ⟨rfl, rfl⟩⟩

theorem Inv.retarget {b : B} (h : Inv b) (f : Option Format) : Inv (retarget d f b) :=
  ⟨h.ios, forall₂_left h.files (h.left d), fun f _ => rel_new f, (fun f _ _ x hx => nomatch hx), fun _ => ⟨rfl, rfl⟩⟩

/-! ### Runs of `ProofOut` -/

/-- An environment with these results. -/
def Agrees (d : Dev) (e : Env) (L : List Bool) : Prop := e.chk = d.chk ∧ e.lrat = d.lrat ∧ ∀ n x, L[n]? = some x → e.io n = x

theorem Agrees.mono {e : Env} {L L' : List Bool} (h : Agrees d e L') (hL : L <+: L') : Agrees d e L := by
  obtain ⟨K, rfl⟩ := hL
  refine ⟨h.1, h.2.1, fun n x hx => h.2.2 n x ?_⟩
  rw [List.getElem?_append_left (List.getElem?_eq_some_iff.1 hx).1]; exact hx

/-- There is such an environment. -/
theorem agrees_exists (d : Dev) (L : List Bool) : Agrees d ⟨fun n => L.getD n true, d.chk, d.lrat⟩ L :=
  ⟨rfl, rfl, fun n x hx => by simp [List.getD, hx]⟩

theorem Agrees.next {e : Env} {b : B} {x : Bool} (h : Agrees d e (b.log ++ [x])) (hi : b.s.ios = b.log.length) : e.io b.s.ios = x :=
  h.2.2 _ _ (by rw [hi]; simp)

/-- A computation `r` from the state `b` and the computation `a` of `ProofOut`: whatever results `r` has, `a` has the same with an
environment that agrees. -/
def Runs {γ δ : Type} (d : Dev) (b : B) (st : γ → B) (good : γ → Prop) (out : γ → δ) (r : Option γ) (a : Env → Option δ) : Prop :=
  match r with
  | some c => good c ∧ b.log <+: (st c).log ∧ ∀ e, Agrees d e (st c).log → a e = some (out c)
  | none => ∃ L, b.log <+: L ∧ ∀ e, Agrees d e L → a e = none

theorem Runs.bind {γ δ γ' δ' : Type} {b : B} {st : γ → B} {good : γ → Prop} {out : γ → δ} {r : Option γ} {a : Env → Option δ}
    {st' : γ' → B} {good' : γ' → Prop} {out' : γ' → δ'} {k : γ → Option γ'} {k' : Env → δ → Option δ'}
    (h : Runs d b st good out r a)
    (h' : ∀ c, r = some c → good c → Runs d (st c) st' good' out' (k c) (fun e => k' e (out c))) :
    Runs d b st' good' out' (r.bind k) (fun e => (a e).bind (k' e)) := by
  cases r with
  | none =>
    obtain ⟨L, h1, h2⟩ := h
    exact ⟨L, h1, fun e he => by simp only; rw [h2 e he]; rfl⟩
  | some c =>
    obtain ⟨h1, h2, h3⟩ := h
    have := h' c rfl h1
    show Runs d b st' good' out' (k c) _
    unfold Runs at this ⊢
    cases hk : k c with
    | none =>
      rw [hk] at this
      obtain ⟨L, g1, g2⟩ := this
      exact ⟨L, h2.trans g1, fun e he => by simp only; rw [h3 e (he.mono g1)]; exact g2 e he⟩
    | some c' =>
      rw [hk] at this
      obtain ⟨g1, g2, g3⟩ := this
      exact ⟨g1, h2.trans g2, fun e he => by simp only; rw [h3 e (he.mono g2)]; exact g3 e he⟩

/-- A computation of states. -/
abbrev RunsB (d : Dev) (b : B) (r : Option B) (a : Env → Option Sess) : Prop := Runs d b id Inv B.s r a

/-- Writing steps, which may have failed. -/
abbrev RunsW (d : Dev) (b : B) (r : Option (B × Bool)) (a : Env → Option (Sess × Bool)) : Prop :=
  Runs d b (·.1) (fun c => if c.2 then Inv c.1 else Torn c.1) (fun c => (c.1.s, c.2)) r a

theorem Runs.of_eq {γ δ : Type} {b : B} {st : γ → B} {good : γ → Prop} {out : γ → δ} {r r' : Option γ} {a a' : Env → Option δ}
    (h : Runs d b st good out r' a') (hr : r = r') (ha : ∀ e, e.chk = d.chk → e.lrat = d.lrat → a e = a' e) : Runs d b st good out r a := by
  subst hr
  unfold Runs at h ⊢
  cases r with
  | none =>
    obtain ⟨L, h1, h2⟩ := h
    exact ⟨L, h1, fun e he => (ha e he.1 he.2.1).trans (h2 e he)⟩
  | some c => exact ⟨h.1, h.2.1, fun e he => (ha e he.1 he.2.1).trans (h.2.2 e he)⟩

theorem Runs.from {γ δ : Type} {b b' : B} {st : γ → B} {good : γ → Prop} {out : γ → δ} {r : Option γ} {a : Env → Option δ}
    (h : Runs d b' st good out r a) (hb : b'.log = b.log) : Runs d b st good out r a := by
  unfold Runs at h ⊢; rw [← hb]; exact h

theorem put_runs (hd : d.Ok) {b : B} (h : Inv b) {f : Format} (hf : b.s.proof.format = some f) (st : ProofStep)
    (hs : f ≠ .varisat → (Drat.steps st).isSome) : RunsW d b (some (put d b st)) (fun e => some (Out.put e b.s st)) := by
  have hp := putAll_at (t := b.target d) (d.split (encode f st)) (h.cur f hf)
  rw [hd] at hp
  have hw : (W f b.s.proof.written).put (encode f st) = W f (b.s.proof.written ++ [st]) := by
    simp [W, Lrat.W.put, enc_append, enc]
  rw [hw] at hp
  unfold put
  simp only [hf]
  rcases hp with ⟨w, h1, h2, -, -⟩ | ⟨w, h1, h2, -⟩
  · rw [h1]
    refine ⟨?_, List.prefix_append _ _, fun e he => ?_⟩
    · simp only [if_true]
      refine ⟨?_, h.files, fun g hg => ?_, fun g hg => ?_, fun hn => ?_⟩
      · simp [Out.put, Dev.env, h.ios]
      · simp only [Out.put, Dev.env, if_true] at hg ⊢
        rw [hf] at hg; cases hg
        exact h2
      · simp only [Out.put, Dev.env, if_true] at hg ⊢
        rw [hf] at hg; cases hg
        exact (h.sup f hf).append hs
      · simp only [Out.put, Dev.env, if_true] at hn
        rw [hf] at hn; cases hn
    · simp only [Out.put, he.next h.ios, Dev.env, if_true]
  · rw [h1]
    refine ⟨?_, List.prefix_append _ _, fun e he => ?_⟩
    · simp only [Bool.false_eq_true, if_false]
      refine ⟨?_, h.files, f, [st], ?_, by simp, by simpa [Out.put, Dev.env] using (h.sup f hf).append hs, ?_⟩
      · simp [Out.put, Dev.env, h.ios]
      · simpa [Out.put, Dev.env] using hf
      · simpa [Out.put, Dev.env, W] using h2.pre
    · simp [Out.put, he.next h.ios, Dev.env]

theorem put_format (d : Dev) (b : B) (st : ProofStep) : (put d b st).1.s.proof.format = b.s.proof.format := by
  unfold put
  generalize (match b.s.proof.format with | some f => encode f st | none => []) = bytes
  simp only
  split <;> simp [Out.put, Dev.env]

theorem put_bits (d : Dev) (b : B) (st : ProofStep) : (put d b st).1.s.proof.hashBits = b.s.proof.hashBits := by
  unfold put
  generalize (match b.s.proof.format with | some f => encode f st | none => []) = bytes
  simp only
  split <;> simp [Out.put, Dev.env]

theorem putStep_runs (hd : d.Ok) {b : B} (h : Inv b) {f : Format} (hf : b.s.proof.format = some f) (st out : ProofStep)
    (hs : f ≠ .varisat → (Drat.steps out).isSome) : RunsW d b (some (putStep d b st out)) (fun e => some (Out.putStep e b.s st out)) := by
  have hp := put_runs hd h hf out hs
  unfold putStep
  rcases hq : put d b out with ⟨b', ok⟩
  rw [hq] at hp
  obtain ⟨h1, h2, h3⟩ := hp
  cases ok with
  | true =>
    refine ⟨?_, h2, fun e he => ?_⟩
    · simp only [if_true] at h1 ⊢
      exact h1.congr rfl rfl rfl rfl rfl rfl rfl
    · have := h3 e he
      simp only [Option.some.injEq] at this
      simp only [Out.putStep, this, if_true]
  | false =>
    refine ⟨h1, h2, fun e he => ?_⟩
    have := h3 e he
    simp only [Option.some.injEq] at this
    simp [Out.putStep, this]

theorem writeHashed_runs (hd : d.Ok) {b : B} (h : Inv b) (hf : b.s.proof.format = some .varisat) (st : ProofStep) :
    RunsW d b (writeHashed d st b) (fun e => if b.s.proof.hashBits > 64 then none
      else some (Out.putStep e b.s st (mapHashes (· >>> (64 - b.s.proof.hashBits)) st))) := by
  unfold writeHashed
  by_cases hb : b.s.proof.hashBits > 64
  · simp only [hb, if_true]
    exact ⟨b.log, List.prefix_refl _, fun _ _ => rfl⟩
  · simp only [hb, if_false]
    exact putStep_runs hd h hf _ _ (fun hn => absurd rfl hn)

theorem writeVarisat_runs (hd : d.Ok) {b : B} (h : Inv b) (hf : b.s.proof.format = some .varisat) (st : ProofStep) :
    RunsW d b (writeVarisat d b st) (fun e => Out.writeVarisat e b.s st) := by
  have hc : Inv (count b st) := h.congr rfl rfl rfl rfl rfl rfl rfl
  have hcf : (count b st).s.proof.format = some .varisat := hf
  unfold writeVarisat
  by_cases hr : rehashed b.s.invoked (b.s.proof.count + delta st) b.s.proof.hashBits = true
  · simp only [hr, if_true]
    have hp := put_runs hd hc hcf (.changeHashBits (count b st).s.proof.hashBits) (fun hn => absurd rfl hn)
    refine Runs.of_eq (Runs.bind (k := fun c => if c.2 then writeHashed d st c.1 else some (c.1, false))
      (k' := fun e c => if c.2 then (if c.1.proof.hashBits > 64 then none
          else some (Out.putStep e c.1 st (mapHashes (· >>> (64 - c.1.proof.hashBits)) st))) else some (c.1, false)) (hp.from rfl) fun c hcc hg => ?_) ?_ ?_
    · cases hcc
      cases hok : (put d (count b st) (.changeHashBits (count b st).s.proof.hashBits)).2 with
      | true =>
        rw [hok] at hg
        simp only [if_true] at hg ⊢
        exact writeHashed_runs hd hg (by rw [put_format]; exact hcf) st
      | false =>
        rw [hok] at hg
        simp only [Bool.false_eq_true, if_false] at hg ⊢
        exact ⟨by simpa using hg, List.prefix_refl _, fun _ _ => rfl⟩
    · rcases put d (count b st) (.changeHashBits (count b st).s.proof.hashBits) with ⟨b', ok⟩
      cases ok <;> rfl
    · intro e _ _
      unfold Out.writeVarisat
      simp only [hr, if_true, Option.bind_some]
      show _ = _
      have hs : ({ b.s with proof := { b.s.proof with count := b.s.proof.count + delta st, hashBits := nextBits b.s.invoked (b.s.proof.count + delta st) b.s.proof.hashBits } } : Sess) =
        (count b st).s := rfl
      rw [hs, show nextBits b.s.invoked (b.s.proof.count + delta st) b.s.proof.hashBits = (count b st).s.proof.hashBits from rfl]
      unfold Out.put
      cases e.io (count b st).s.ios <;> simp
  · simp only [hr]
    refine Runs.of_eq ((writeHashed_runs hd hc hcf st).from rfl) rfl fun e _ _ => ?_
    unfold Out.writeVarisat
    simp only [hr]
    rfl

theorem writeOut_runs (hd : d.Ok) {b : B} (h : Inv b) (st : ProofStep) : RunsW d b (writeOut d b st) (fun e => Out.writeOut e b.s st) := by
  unfold writeOut Out.writeOut
  cases hf : b.s.proof.format with
  | none => exact ⟨by simpa using h, List.prefix_refl _, fun _ _ => rfl⟩
  | some f =>
    cases f with
    | varisat => exact writeVarisat_runs hd h hf st
    | drat =>
      simp only
      split
      · rename_i hs
        exact putStep_runs hd h hf _ _ fun _ => hs
      · exact ⟨b.log, List.prefix_refl _, fun _ _ => rfl⟩
    | binaryDrat =>
      simp only
      split
      · rename_i hs
        exact putStep_runs hd h hf _ _ fun _ => hs
      · exact ⟨b.log, List.prefix_refl _, fun _ _ => rfl⟩

theorem tell_runs {b : B} (h : Inv b) (m : Checker.CM Unit) : RunsB d b (tell d b m) (fun _ => Out.tell b.s m) := by
  unfold tell Out.tell
  cases hc : b.s.proof.checker with
  | none => exact ⟨h, List.prefix_refl _, fun _ _ => rfl⟩
  | some c =>
    simp only
    unfold handleCheck Out.handleCheck
    cases hm : m c with
    | ok u c' => exact ⟨(h.congr rfl rfl rfl rfl rfl rfl rfl), List.prefix_refl _, fun _ _ => rfl⟩
    | error er c' =>
      cases er with
      | processor => exact ⟨(h.drop.congr rfl rfl rfl rfl rfl rfl rfl), List.prefix_refl _, fun _ _ => rfl⟩
      | _ => exact ⟨b.log, List.prefix_refl _, fun _ _ => rfl⟩

theorem addStep_runs (hd : d.Ok) {b : B} (h : Inv b) (st : ProofStep) : RunsB d b (addStep d b st) (fun e => Out.addStep e b.s st) := by
  unfold addStep Out.addStep
  by_cases her : b.s.error.isSome
  · simp only [her, if_true]
    exact ⟨h, List.prefix_refl _, fun _ _ => rfl⟩
  · simp only [her]
    refine Runs.of_eq (Runs.bind (k := fun c => if c.2 then tell d c.1 (Checker.selfCheckStep d.chk st) else some (fail d c.1))
      (k' := fun _ c => if c.2 then Out.tell c.1 (Checker.selfCheckStep d.chk st) else some (handleIo c.1 false)) (writeOut_runs hd h st) fun c _ hg => ?_) ?_ ?_
    · rcases c with ⟨b', ok⟩
      cases ok with
      | true => exact tell_runs hg _
      | false => exact ⟨(Torn.fail hg), List.prefix_refl _, fun _ _ => rfl⟩
    · rcases writeOut d b st with _ | ⟨b', ok⟩
      · rfl
      · cases ok <;> rfl
    · intro e he _
      rw [he]
      rcases Out.writeOut e b.s st with _ | ⟨b', ok⟩
      · rfl
      · cases ok <;> rfl

theorem counted_s (c : List Lit) (b : B) : (counted c b).s = if c.length > 1 then { b.s with proof := { b.s.proof with count := b.s.proof.count + 1 } } else b.s := by
  unfold counted; split <;> rfl

theorem addClause_runs (hd : d.Ok) {b : B} (h : Inv b) (c : List Lit) : RunsB d b (addClause d b c) (fun e => Out.addClause e b.s c) := by
  unfold addClause Out.addClause
  by_cases hi : b.s.invoked = true
  · simp only [hi, if_true]
    exact addStep_runs hd h _
  · simp only [hi]
    refine Runs.of_eq (Runs.bind (k := fun b => some (counted c b))
      (k' := fun _ s => some (if c.length > 1 then { s with proof := { s.proof with count := s.proof.count + 1 } } else s))
      (tell_runs h (Checker.addClause d.chk c)) fun b' _ hg => ?_) ?_ ?_
    · refine ⟨?_, ?_, fun _ _ => by rw [counted_s]⟩
      · unfold counted; split
        · exact hg.congr rfl rfl rfl rfl rfl rfl rfl
        · exact hg
      · unfold counted; split <;> exact List.prefix_refl _
    · cases tell d b (Checker.addClause d.chk c) <;> rfl
    · intro e he _
      rw [he]
      cases Out.tell b.s (Checker.addClause d.chk c) <;> rfl

/-- Flushing: with success everything is in the target. -/
theorem flush_runs {b : B} (h : Inv b) : RunsB d b (some (flush d b)) (fun e => some (Out.flush e b.s)) ∧
    ((flush d b).s.proof.format.isSome → (flush d b).w.buf = []) := by
  unfold flush Out.flush
  cases hf : b.s.proof.format with
  | none =>
    simp only [Option.isSome_none, Bool.false_eq_true, if_false]
    exact ⟨⟨h, List.prefix_refl _, fun _ _ => rfl⟩, by rw [hf]; nofun⟩
  | some f =>
    simp only [Option.isSome_some, if_true]
    rcases Lrat.Io.flushTarget_at (t := b.target d) (fl := True) trivial (h.cur f hf) with ⟨w, h1, h2, -, h4⟩ | ⟨w, h1, h2⟩
    · rw [h1]
      refine ⟨⟨⟨?_, h.files, fun g hg => ?_, h.sup, fun hn => ?_⟩, List.prefix_append _ _, fun e he => ?_⟩, fun _ => h4⟩
      · simp [h.ios]
      · have hg : b.s.proof.format = some g := hg
        rw [hf] at hg; cases hg; exact h2
      · have hn : b.s.proof.format = none := hn
        rw [hf] at hn; cases hn
      · have := Agrees.next (b := b) he h.ios
        simp only [this]; rfl
    · rw [h1]
      refine ⟨⟨Torn.fail ⟨?_, h.files, f, [], hf, by simp, by rw [List.append_nil]; exact h.sup f hf, ?_⟩, List.prefix_append _ _, fun e he => ?_⟩, nofun⟩
      · simp [h.ios]
      · rw [List.append_nil]; exact h2.pre
      · have := Agrees.next (b := b) he h.ios
        simp only [this]; rfl

theorem solveFinished_runs {b : B} (h : Inv b) : RunsB d b (solveFinished d b) (fun e => Out.solveFinished e b.s) := by
  unfold solveFinished Out.solveFinished
  refine Runs.of_eq (Runs.bind (k := fun b => tell d b (Checker.processUnitConflicts d.chk))
    (k' := fun e s => Out.tell s (Checker.processUnitConflicts e.chk)) (flush_runs h).1 fun b' _ hg => ?_) rfl (fun e _ _ => rfl)
  exact Runs.of_eq (tell_runs hg _) rfl fun e he _ => by rw [he]

theorem closeOutput_runs (hd : d.Ok) {b : B} (h : Inv b) : RunsB d b (closeOutput d b) (fun e => Out.closeOutput e b.s) := by
  unfold closeOutput Out.closeOutput
  refine Runs.of_eq (Runs.bind (k := fun b => some (retarget d none (flush d b)))
    (k' := fun e s => some { Out.flush e s with
      proof := { (Out.flush e s).proof with format := none, given := [], written := [] }
      files := (Out.flush e s).files ++ (Out.flush e s).proof.file }) (addStep_runs hd h .end_) fun b' _ hg => ?_) ?_ ?_
  · obtain ⟨h1, h2, h3⟩ := (flush_runs (d := d) hg).1
    refine ⟨h1.retarget none, h2, fun e he => ?_⟩
    have := h3 e he
    simp only [Option.some.injEq] at this
    simp only [this]
    rfl
  · cases addStep d b .end_ <;> rfl
  · intro e _ _
    cases Out.addStep e b.s .end_ <;> rfl

theorem exec_runs (hd : d.Ok) {b : B} (h : Inv b) (ev : Ev) : RunsB d b (exec d b ev) (fun e => ev.exec e b.s) := by
  cases ev with
  | step st => exact addStep_runs hd h st
  | clause c => exact addClause_runs hd h c
  | sat v => exact ⟨(h.congr rfl rfl rfl rfl rfl rfl rfl), List.prefix_refl _, fun _ _ => rfl⟩
  | nonEmpty => exact ⟨(h.congr rfl rfl rfl rfl rfl rfl rfl), List.prefix_refl _, fun _ _ => rfl⟩

theorem runEvs_runs (hd : d.Ok) (evs : List Ev) {b : B} (h : Inv b) : RunsB d b (runEvs d evs b) (fun e => Out.runEvs e evs b.s) := by
  induction evs generalizing b with
  | nil => exact ⟨h, List.prefix_refl _, fun _ _ => rfl⟩
  | cons ev evs ih =>
    refine Runs.of_eq (Runs.bind (k := runEvs d evs) (k' := fun e s => Out.runEvs e evs s) (exec_runs hd h ev) fun b' _ hg => ih hg) ?_ ?_
    · rw [runEvs]; cases exec d b ev <;> rfl
    · intro e _ _
      rw [Out.runEvs]; cases ev.exec e b.s <;> rfl

/-- The loop, which may not have ended. -/
theorem schedule_runs (hd : d.Ok) (steps : List (List Ev)) {b : B} (h : Inv b) :
    Runs d b (·.1) (fun c => Inv c.1) (fun c => if c.2 then some c.1.s else none) (schedule d steps b) (fun e => Out.schedule e steps b.s) := by
  induction steps generalizing b with
  | nil =>
    unfold schedule Out.schedule
    split
    · exact ⟨h, List.prefix_refl _, fun _ _ => rfl⟩
    · exact ⟨h, List.prefix_refl _, fun _ _ => rfl⟩
  | cons evs rest ih =>
    unfold schedule Out.schedule
    by_cases hc : b.s.sat ≠ .unknown ∨ b.s.error.isSome = true
    · simp only [hc, if_true]
      exact ⟨h, List.prefix_refl _, fun _ _ => rfl⟩
    · simp only [hc, if_false]
      refine Runs.of_eq (Runs.bind (k := schedule d rest) (k' := fun e s => Out.schedule e rest s) (runEvs_runs hd evs h) fun b' _ hg => ih hg) ?_ ?_
      · cases runEvs d evs b <;> rfl
      · intro e _ _
        cases Out.runEvs e evs b.s <;> rfl

/-- What a call returns: a state and a result, if there is one. -/
abbrev RunsR (d : Dev) (b : B) (r : Option (B × Option Ret)) (a : Env → Option (Option (Sess × Ret))) : Prop :=
  Runs d b (·.1) (fun c => Inv c.1) (fun c => c.2.map (c.1.s, ·)) r a

theorem takeError_inv {b : B} (h : Inv b) : Inv (takeError b).1 := by
  unfold takeError Out.takeError
  split
  · exact h.congr rfl rfl rfl rfl rfl rfl rfl
  · exact h

theorem solved_runs {b : B} (h : Inv b) : RunsR d b (solved d b) (fun e => match Out.solveFinished e b.s with
      | none => none
      | some s =>
        match Out.takeError s with
        | (s, some er) => some (some (s, .err er))
        | (s, none) => some (some (s, match s.sat with
            | .unknown => .err .interrupted
            | .sat => .answer true
            | .unsat | .unsatUnder => .answer false))) := by
  unfold solved
  refine Runs.of_eq (Runs.bind (k := fun b => match takeError b with
      | (b, some er) => some (b, some (.err er))
      | (b, none) => some (b, some (match b.s.sat with
        | .unknown => .err .interrupted
        | .sat => .answer true
        | .unsat | .unsatUnder => .answer false))) (k' := fun _ s => match Out.takeError s with
        | (s, some er) => some (some (s, .err er))
        | (s, none) => some (some (s, match s.sat with
            | .unknown => .err .interrupted
            | .sat => .answer true
            | .unsat | .unsatUnder => .answer false))) (solveFinished_runs h) fun b' _ hg => ?_) ?_ ?_
  · have ht := takeError_inv hg
    have hl : (takeError b').1.log = b'.log := rfl
    have h1 : (takeError b').1.s = (Out.takeError b'.s).1 := rfl
    have h2 : (takeError b').2 = (Out.takeError b'.s).2 := rfl
    simp only [id]
    rcases he : takeError b' with ⟨c, er⟩
    rcases he' : Out.takeError b'.s with ⟨s, er'⟩
    rw [he] at ht hl h1 h2
    rw [he'] at h1 h2
    simp only at ht hl h1 h2
    subst h1 h2
    cases er with
    | none => exact ⟨ht, by simp only; rw [hl]; exact List.prefix_refl _, fun _ _ => rfl⟩
    | some x => exact ⟨ht, by simp only; rw [hl]; exact List.prefix_refl _, fun _ _ => rfl⟩
  · cases solveFinished d b <;> rfl
  · intro e _ _
    cases Out.solveFinished e b.s <;> rfl

theorem solve_runs (hd : d.Ok) (steps : List (List Ev)) {b : B} (h : Inv b) : RunsR d b (solve d steps b) (fun e => Out.solve e steps b.s) := by
  unfold solve Out.solve
  by_cases hi : b.s.invalid = true
  · simp only [hi, if_true]
    exact ⟨b.log, List.prefix_refl _, fun _ _ => rfl⟩
  · rw [if_neg hi]
    have h0 : Inv { b with s := { b.s with invoked := true } } := h.congr rfl rfl rfl rfl rfl rfl rfl
    refine Runs.of_eq (Runs.bind (k := fun c => if c.2 then solved d c.1 else some (c.1, none)) (k' := fun e c => match c with
      | none => some none
      | some s => match Out.solveFinished e s with
      | none => none
      | some s =>
        match Out.takeError s with
        | (s, some er) => some (some (s, .err er))
        | (s, none) => some (some (s, match s.sat with
            | .unknown => .err .interrupted
            | .sat => .answer true
            | .unsat | .unsatUnder => .answer false))) ((schedule_runs hd steps h0).from rfl) fun c _ hg => ?_) ?_ ?_
    · rcases c with ⟨b', ended⟩
      cases ended with
      | true => exact solved_runs hg
      | false => exact ⟨hg, List.prefix_refl _, fun _ _ => rfl⟩
    · rcases schedule d steps { b with s := { b.s with invoked := true } } with _ | ⟨b', ended⟩
      · rfl
      · cases ended <;> rfl
    · intro e _ _
      simp only
      rw [if_neg hi]
      rcases Out.schedule e steps { b.s with invoked := true } with _ | _ | s <;> rfl

theorem close_runs (hd : d.Ok) {b : B} (h : Inv b) : RunsR d b (close d b) (fun e => (Out.close e b.s).map some) := by
  unfold close Out.close
  refine Runs.of_eq (Runs.bind (k := fun b => match takeError b with
      | (b, some er) => some (b, some (.err er))
      | (b, none) => some (b, some .unit)) (k' := fun _ s => match Out.takeError s with
      | (s, some er) => some (some (s, .err er))
      | (s, none) => some (some (s, .unit))) (closeOutput_runs hd h) fun b' _ hg => ?_) ?_ ?_
  · have ht := takeError_inv hg
    have hl : (takeError b').1.log = b'.log := rfl
    have h1 : (takeError b').1.s = (Out.takeError b'.s).1 := rfl
    have h2 : (takeError b').2 = (Out.takeError b'.s).2 := rfl
    simp only [id]
    rcases he : takeError b' with ⟨c, er⟩
    rcases he' : Out.takeError b'.s with ⟨s, er'⟩
    rw [he] at ht hl h1 h2
    rw [he'] at h1 h2
    simp only at ht hl h1 h2
    subst h1 h2
    cases er with
    | none => exact ⟨ht, by simp only; rw [hl]; exact List.prefix_refl _, fun _ _ => rfl⟩
    | some x => exact ⟨ht, by simp only; rw [hl]; exact List.prefix_refl _, fun _ _ => rfl⟩
  · cases closeOutput d b <;> rfl
  · intro e _ _
    cases Out.closeOutput e b.s with
    | none => rfl
    | some s =>
      simp only [Option.bind_some]
      rcases Out.takeError s with ⟨s', _ | er⟩ <;> rfl

theorem call_runs (hd : d.Ok) {b : B} (h : Inv b) (op : Op) : RunsR d b (call d b op) (fun e => op.exec e b.s) := by
  cases op with
  | writeProof f =>
    unfold call writeProof Op.exec Out.writeProof
    simp only
    by_cases he : b.s.empty = true
    · rw [if_pos he, if_pos he]
      exact ⟨h.retarget _, List.prefix_refl _, fun _ _ => rfl⟩
    · rw [if_neg he, if_neg he]
      exact ⟨b.log, List.prefix_refl _, fun _ _ => rfl⟩
  | selfCheck =>
    unfold call selfCheck Op.exec Out.selfCheck
    simp only
    by_cases he : b.s.empty = true
    · rw [if_pos he, if_pos he]
      exact ⟨h.congr rfl rfl rfl rfl rfl rfl rfl, List.prefix_refl _, fun _ _ => rfl⟩
    · rw [if_neg he, if_neg he]
      exact ⟨b.log, List.prefix_refl _, fun _ _ => rfl⟩
  | call evs =>
    refine Runs.of_eq (Runs.bind (k := fun b => some (b, some .unit)) (k' := fun _ s => some (some (s, .unit))) (runEvs_runs hd evs h) fun b' _ hg => ?_) ?_ ?_
    · exact ⟨hg, List.prefix_refl _, fun _ _ => rfl⟩
    · unfold call; simp only; cases runEvs d evs b <;> rfl
    · intro e _ _
      unfold Op.exec; simp only; cases Out.runEvs e evs b.s <;> rfl
  | solve steps => exact solve_runs hd steps h
  | close => exact close_runs hd h

/-! ### Everything is in the target -/

/-- The data are these steps, in the file formats. -/
def Whole : Format → List ProofStep → Bytes → Prop
  | .varisat, L, data => data = L.flatMap Fmt.writeStep
  | .drat, L, data => Drat.output false L = some data
  | .binaryDrat, L, data => Drat.output true L = some data

theorem output_enc (bin : Bool) (L : List ProofStep) (h : ∀ st ∈ L, (Drat.steps st).isSome) :
    Drat.output bin L = some (L.flatMap fun st => (Drat.writeStep bin st).getD []) := by
  induction L with
  | nil => rfl
  | cons st L ih =>
    obtain ⟨x, hx⟩ := Option.isSome_iff_exists.1 (h st (by simp))
    have : Drat.writeStep bin st = some (x.flatMap (if bin then Drat.emitBinary else Drat.emitText)) := by unfold Drat.writeStep; rw [hx]; rfl
    rw [Drat.output, ih fun y hy => h y (by simp [hy]), this]
    simp [this]

theorem Sup.whole {f : Format} {L : List ProofStep} (h : Sup f L) : Whole f L (enc f L) := by
  cases f with
  | varisat => rfl
  | drat => exact output_enc false L (h nofun)
  | binaryDrat => exact output_enc true L (h nofun)

theorem tell_keeps {b b' : B} {m : Checker.CM Unit} (h : tell d b m = some b') (he : b'.s.error = none) :
    b'.w = b.w ∧ b'.s.proof.format = b.s.proof.format ∧ b'.s.proof.written = b.s.proof.written ∧ b'.files = b.files ∧ b'.s.files = b.s.files ∧
      b.s.error = none := by
  unfold tell at h
  split at h
  · rename_i c _
    unfold handleCheck at h
    split at h
    · cases h; exact ⟨rfl, rfl, rfl, rfl, rfl, he⟩
    · cases h; cases he
    · cases h
  · cases h; exact ⟨rfl, rfl, rfl, rfl, rfl, he⟩

theorem tell_format {b b' : B} {m : Checker.CM Unit} (h : tell d b m = some b') (he : b'.s.proof.format.isSome) :
    b'.w = b.w ∧ b.s.proof.format.isSome := by
  unfold tell at h
  split at h
  · rename_i c _
    unfold handleCheck at h
    split at h
    · cases h; exact ⟨rfl, he⟩
    · cases h; cases he
    · cases h
  · cases h; exact ⟨rfl, he⟩

/-- When `solve` returns and there still is a target, the buffer is empty. -/
theorem solved_flushed {b b' : B} {r : Option Ret} (h : Inv b) (hs : solved d b = some (b', r)) (hf : b'.s.proof.format.isSome) : b'.w.buf = [] := by
  unfold solved at hs
  cases h1 : solveFinished d b with
  | none => rw [h1] at hs; cases hs
  | some b1 =>
    rw [h1] at hs
    have hb : b'.w = b1.w ∧ b'.s.proof = b1.s.proof := by
      have hp : (takeError b1).1.s.proof = b1.s.proof := by
        unfold takeError Out.takeError; split <;> rfl
      have hw : (takeError b1).1.w = b1.w := rfl
      simp only at hs
      rcases ht : takeError b1 with ⟨c, _ | er⟩
      all_goals
        rw [ht] at hs hp hw
        cases hs
        exact ⟨hw, hp⟩
    rw [hb.2] at hf
    unfold solveFinished at h1
    obtain ⟨h2, h3⟩ := tell_format h1 hf
    rw [hb.1, h2]
    exact (flush_runs h).2 h3

theorem solve_flushed {b b' : B} {r : Ret} {steps : List (List Ev)} (hd : d.Ok) (h : Inv b) (hs : solve d steps b = some (b', some r))
    (hf : b'.s.proof.format.isSome) : b'.w.buf = [] := by
  unfold solve at hs
  split at hs
  · cases hs
  · have h0 : Inv { b with s := { b.s with invoked := true } } := h.congr rfl rfl rfl rfl rfl rfl rfl
    have hr := schedule_runs hd steps h0
    rcases h1 : schedule d steps { b with s := { b.s with invoked := true } } with _ | ⟨c, _ | _⟩
    · rw [h1] at hs; cases hs
    · rw [h1] at hs; cases hs
    · rw [h1] at hs hr
      exact solved_flushed hr.1 hs hf

theorem put_keeps (d : Dev) (b : B) (st : ProofStep) : (put d b st).1.files = b.files ∧ (put d b st).1.s.files = b.s.files ∧
    (put d b st).1.s.proof.format = b.s.proof.format ∧ (put d b st).1.s.error = b.s.error ∧
    ((put d b st).2 = true → (put d b st).1.s.proof.written = b.s.proof.written ++ [st]) := by
  unfold put
  generalize (match b.s.proof.format with | some f => encode f st | none => []) = bytes
  simp only
  split <;> simp [Out.put, Dev.env]

/-- What a successful write does not change, and the steps written. -/
structure Keeps (b b' : B) (st : ProofStep) : Prop where
  files : b'.files = b.files
  sfiles : b'.s.files = b.s.files
  format : b'.s.proof.format = b.s.proof.format
  error : b'.s.error = b.s.error
  written : b.s.proof.format.isSome → b'.s.proof.written.getLast? = some st

theorem putStep_keeps {b b' : B} {st out : ProofStep} (h : putStep d b st out = (b', true)) : Keeps b b' out := by
  obtain ⟨h1, h2, h3, h4, h5⟩ := put_keeps d b out
  unfold putStep at h
  rcases hq : put d b out with ⟨c, ok⟩
  rw [hq] at h h1 h2 h3 h4 h5
  cases ok with
  | false => cases h
  | true =>
    cases h
    exact ⟨h1, h2, h3, h4, fun _ => by have := h5 rfl; simp only at this ⊢; rw [this]; simp⟩

theorem writeOut_keeps {b b' : B} {st : ProofStep} (hst : ∀ f, mapHashes f st = st) (h : writeOut d b st = some (b', true)) : Keeps b b' st := by
  unfold writeOut at h
  split at h
  · have hh : ∀ c : B, writeHashed d st c = some (b', true) → Keeps c b' st := by
      intro c hc
      unfold writeHashed at hc
      split at hc
      · cases hc
      · have := putStep_keeps (Option.some.inj hc)
        rwa [hst] at this
    unfold writeVarisat at h
    split at h
    · obtain ⟨h1, h2, h3, h4, -⟩ := put_keeps d (count b st) (.changeHashBits (count b st).s.proof.hashBits)
      rcases hq : put d (count b st) (.changeHashBits (count b st).s.proof.hashBits) with ⟨c, ok⟩
      rw [hq] at h h1 h2 h3 h4
      cases ok with
      | false => cases h
      | true =>
        have := hh c h
        exact ⟨this.files.trans h1, this.sfiles.trans h2, this.format.trans h3, this.error.trans h4, fun hf => this.written (by rw [h3]; exact hf)⟩
    · have := hh _ h
      exact ⟨this.files, this.sfiles, this.format, this.error, this.written⟩
  · split at h
    · exact putStep_keeps (Option.some.inj h)
    · cases h
  · rename_i hf
    cases h
    exact ⟨rfl, rfl, rfl, rfl, fun h => by rw [hf] at h; cases h⟩

theorem addStep_keeps {b b' : B} {st : ProofStep} (hst : ∀ f, mapHashes f st = st) (h : addStep d b st = some b') (he : b'.s.error = none) :
    Keeps b b' st := by
  unfold addStep at h
  split at h
  · rename_i h0
    cases h
    rw [he] at h0; cases h0
  · split at h
    · cases h
    · cases h; cases he
    · rename_i c hc
      have k := writeOut_keeps hst hc
      obtain ⟨h1, h2, h3, h4, h5, h6⟩ := tell_keeps h he
      exact ⟨h4.trans k.files, h5.trans k.sfiles, h2.trans k.format, by rw [he, ← k.error, h6], fun hf => by rw [h3]; exact k.written hf⟩

theorem discard_empty {t : Target} {w : F} (h : w.buf = []) : (discard t w).data = w.data := by
  unfold discard Lrat.Io.flushBuf
  rw [h, Lrat.Io.drain]
  rfl

theorem flush_keeps {b : B} (he : (flush d b).s.error = none) : (flush d b).files = b.files ∧ (flush d b).s.files = b.s.files ∧
    (flush d b).s.proof = b.s.proof ∧ b.s.error = none := by
  unfold flush at he ⊢
  split
  · rename_i hf
    rw [if_pos hf] at he
    split
    · rename_i hw
      rw [hw] at he
      exact ⟨rfl, rfl, rfl, he⟩
    · rename_i hw
      rw [hw] at he
      cases he
  · rename_i hf
    rw [if_neg hf] at he
    exact ⟨rfl, rfl, rfl, he⟩

/-- When `close_proof` returns without an error, the target has all steps, and the last one is the end marker. -/
theorem close_whole (hd : d.Ok) {b b' : B} {f : Format} (h : Inv b) (hf : b.s.proof.format = some f) (hc : close d b = some (b', some .unit)) :
    ∃ data x, b'.files = b.files ++ [data] ∧ b'.s.files = b.s.files ++ [x] ∧ x.format = f ∧ Whole f x.written data ∧ x.written.getLast? = some .end_ := by
  unfold close closeOutput at hc
  have hr := addStep_runs hd h .end_
  cases h1 : addStep d b .end_ with
  | none => rw [h1] at hc; cases hc
  | some b1 =>
    rw [h1] at hc hr
    have hi : Inv b1 := hr.1
    simp only at hc
    have he : (flush d b1).s.error = none := by
      cases he : (flush d b1).s.error with
      | none => rfl
      | some er =>
        have : (takeError (retarget d none (flush d b1))).2 = some er := by
          unfold takeError Out.takeError retarget; rw [he]
        rcases ht : takeError (retarget d none (flush d b1)) with ⟨c, _ | _⟩
        · rw [ht] at this; cases this
        · rw [ht] at hc; cases hc
    have hb : b' = retarget d none (flush d b1) := by
      have : takeError (retarget d none (flush d b1)) = (retarget d none (flush d b1), none) := by
        unfold takeError Out.takeError retarget; rw [he]
      rw [this] at hc
      cases hc; rfl
    obtain ⟨k1, k2, k3, k4⟩ := flush_keeps he
    have kk := addStep_keeps (fun _ => rfl) h1 k4
    have hf1 : (flush d b1).s.proof.format = some f := by rw [k3, kk.format, hf]
    obtain ⟨g1, g2⟩ := flush_runs (d := d) hi
    have hfl : Inv (flush d b1) := g1.1
    have hbuf := g2 (by rw [hf1]; rfl)
    refine ⟨(flush d b1).w.data, ⟨f, (flush d b1).s.proof.given, (flush d b1).s.proof.written⟩, ?_, ?_, rfl, ?_, ?_⟩
    · rw [hb]
      show (flush d b1).files ++ (flush d b1).left d = _
      unfold B.left
      rw [hf1, k1, kk.files, discard_empty hbuf]
      rfl
    · rw [hb]
      show (flush d b1).s.files ++ (flush d b1).s.proof.file = _
      unfold Proof.file
      rw [hf1, k2, kk.sfiles]
    · have ht : enc f (flush d b1).s.proof.written = _ := (hfl.cur f hf1).target
      rw [hbuf, List.append_nil] at ht
      rw [← ht]
      exact (hfl.sup f hf1).whole
    · show (flush d b1).s.proof.written.getLast? = _
      rw [k3]
      exact kk.written (by rw [hf]; rfl)

/-- Without an error at the end, the target is still the same and has no fewer steps. -/
def Same (b b' : B) : Prop := b'.s.error = none → b.s.error = none ∧ b'.s.proof.format = b.s.proof.format ∧ b'.files = b.files ∧
  b'.s.files = b.s.files ∧ b.s.proof.written <+: b'.s.proof.written

theorem Same.refl (b : B) : Same b b := fun h => ⟨h, rfl, rfl, rfl, List.prefix_refl _⟩

theorem Same.trans {a b c : B} (h : Same a b) (h' : Same b c) : Same a c := fun hc => by
  obtain ⟨h1, h2, h3, h4, h5⟩ := h' hc
  obtain ⟨g1, g2, g3, g4, g5⟩ := h h1
  exact ⟨g1, h2.trans g2, h3.trans g3, h4.trans g4, g5.trans h5⟩

theorem tell_same {b b' : B} {m : Checker.CM Unit} (h : tell d b m = some b') : Same b b' := fun he => by
  obtain ⟨-, h1, h2, h3, h4, h5⟩ := tell_keeps h he
  exact ⟨h5, h1, h3, h4, by rw [h2]; exact List.prefix_refl _⟩

theorem flush_same (d : Dev) (b : B) : Same b (flush d b) := fun he => by
  obtain ⟨h1, h2, h3, h4⟩ := flush_keeps he
  exact ⟨h4, by rw [h3], h1, h2, by rw [h3]; exact List.prefix_refl _⟩

theorem put_same {b b' : B} {st : ProofStep} (h : put d b st = (b', true)) : Same b b' := fun he => by
  obtain ⟨h1, h2, h3, h4, h5⟩ := put_keeps d b st
  rw [h] at h1 h2 h3 h4 h5
  exact ⟨h4.symm.trans he, h3, h1, h2, by rw [h5 rfl]; exact List.prefix_append _ _⟩

theorem putStep_same {b b' : B} {st out : ProofStep} (h : putStep d b st out = (b', true)) : Same b b' := by
  unfold putStep at h
  rcases hq : put d b out with ⟨c, ok⟩
  rw [hq] at h
  cases ok with
  | false => cases h
  | true => cases h; exact (put_same hq : Same b c)

theorem writeOut_same {b b' : B} {st : ProofStep} (h : writeOut d b st = some (b', true)) : Same b b' := by
  unfold writeOut at h
  split at h
  · have hh : ∀ c : B, writeHashed d st c = some (b', true) → Same c b' := by
      intro c hc
      unfold writeHashed at hc
      split at hc
      · cases hc
      · exact putStep_same (Option.some.inj hc)
    have h0 : Same b (count b st) := fun he => ⟨he, rfl, rfl, rfl, List.prefix_refl _⟩
    unfold writeVarisat at h
    split at h
    · rcases hq : put d (count b st) (.changeHashBits (count b st).s.proof.hashBits) with ⟨c, ok⟩
      rw [hq] at h
      cases ok with
      | false => cases h
      | true => exact h0.trans ((put_same hq).trans (hh c h))
    · exact h0.trans (hh _ h)
  · split at h
    · exact putStep_same (Option.some.inj h)
    · cases h
  · cases h; exact .refl _

theorem addStep_same {b b' : B} {st : ProofStep} (h : addStep d b st = some b') : Same b b' := by
  unfold addStep at h
  split at h
  · cases h; exact .refl _
  · split at h
    · cases h
    · cases h; exact nofun
    · rename_i c hc
      exact (writeOut_same hc).trans (tell_same h)

theorem exec_same {b b' : B} {ev : Ev} (h : exec d b ev = some b') : Same b b' := by
  cases ev with
  | step st => exact addStep_same h
  | clause c =>
    have h : addClause d b c = some b' := h
    unfold addClause at h
    by_cases hi : b.s.invoked = true
    · rw [if_pos hi] at h
      exact addStep_same h
    · rw [if_neg hi] at h
      cases hc : tell d b (Checker.addClause d.chk c) with
      | none => rw [hc] at h; cases h
      | some c' =>
        rw [hc] at h
        cases h
        refine (tell_same hc).trans ?_
        unfold counted; split
        · exact fun he => ⟨he, rfl, rfl, rfl, List.prefix_refl _⟩
        · exact .refl _
  | sat v => cases h; exact fun he => ⟨he, rfl, rfl, rfl, List.prefix_refl _⟩
  | nonEmpty => cases h; exact fun he => ⟨he, rfl, rfl, rfl, List.prefix_refl _⟩

theorem runEvs_same {evs : List Ev} {b b' : B} (h : runEvs d evs b = some b') : Same b b' := by
  induction evs generalizing b with
  | nil => cases h; exact .refl _
  | cons ev evs ih =>
    rw [runEvs] at h
    split at h
    · cases h
    · rename_i c hc
      exact (exec_same hc).trans (ih h)

theorem schedule_same {steps : List (List Ev)} {b b' : B} {x : Bool} (h : schedule d steps b = some (b', x)) : Same b b' := by
  induction steps generalizing b with
  | nil =>
    unfold schedule at h
    split at h <;> cases h <;> exact .refl _
  | cons evs rest ih =>
    unfold schedule at h
    split at h
    · cases h; exact .refl _
    · simp only at h
      split at h
      · cases h
      · rename_i c hc
        exact (runEvs_same hc).trans (ih h)

/-- An answer: the target is the one from before. -/
theorem solve_same {steps : List (List Ev)} {b b' : B} {x : Bool} (h : solve d steps b = some (b', some (.answer x))) :
    b'.s.proof.format = b.s.proof.format ∧ b'.files = b.files ∧ b'.s.files = b.s.files ∧ b.s.proof.written <+: b'.s.proof.written := by
  unfold solve at h
  split at h
  · cases h
  · have h0 : Same b { b with s := { b.s with invoked := true } } := fun he => ⟨he, rfl, rfl, rfl, List.prefix_refl _⟩
    rcases h1 : schedule d steps { b with s := { b.s with invoked := true } } with _ | ⟨c, _ | _⟩
    · rw [h1] at h; cases h
    · rw [h1] at h; cases h
    · rw [h1] at h
      have h2 := h0.trans (schedule_same h1)
      simp only [solved] at h
      cases h3 : solveFinished d c with
      | none => rw [h3] at h; cases h
      | some c1 =>
        rw [h3] at h
        simp only at h
        cases he : c1.s.error with
        | some er =>
          have : (takeError c1).2 = some er := by unfold takeError Out.takeError; rw [he]
          rcases ht : takeError c1 with ⟨c2, _ | _⟩
          · rw [ht] at this; cases this
          · rw [ht] at h; cases h
        | none =>
          have ht : takeError c1 = (c1, none) := by unfold takeError Out.takeError; rw [he]
          rw [ht] at h
          have hb : b' = c1 := (Prod.mk.inj (Option.some.inj h)).1.symm
          subst hb
          exact (h2.trans ((flush_same d c).trans (tell_same h3)) he).2

/-- Whole histories. -/
theorem Ran.runs (hd : d.Ok) {b b' : B} {h : List (Op × Ret)} (x : Ran d b h b') (hb : Inv b) :
    Inv b' ∧ b.log <+: b'.log ∧ ∀ e, Agrees d e b'.log → Out.Ran e b.s h b'.s := by
  induction x with
  | nil => exact ⟨hb, List.prefix_refl _, fun _ _ => .nil⟩
  | snoc op _ hc ih =>
    obtain ⟨h1, h2, h3⟩ := ih
    have := call_runs hd h1 op
    rw [hc] at this
    obtain ⟨g1, g2, g3⟩ := this
    exact ⟨g1, h2.trans g2, fun e he => .snoc op (h3 e (he.mono g2)) (g3 e he)⟩

/-! ### Tests -/

/-- Run calls. -/
def runOps (d : Dev) : List Op → B → List (Op × Ret) → Option (B × List (Op × Ret))
  | [], b, h => some (b, h)
  | op :: ops, b, h =>
    match call d b op with
    | some (b, some r) => runOps d ops b (h ++ [(op, r)])
    | _ => none

theorem runOps_ran {ops : List Op} {b0 b b' : B} {h h' : List (Op × Ret)} (hr : Ran d b0 h b) (hx : runOps d ops b h = some (b', h')) : Ran d b0 h' b' := by
  induction ops generalizing b h with
  | nil => injection hx with hx; injection hx with h1 h2; subst h1; subst h2; exact hr
  | cons op ops ih =>
    unfold runOps at hx
    split at hx
    · exact ih (hr.snoc op ‹_›) hx
    · cases hx

theorem peek {ops : List Op} {f : B → List (Op × Ret) → Bool} (h : (runOps d ops {} []).any (fun x => f x.1 x.2) = true) :
    ∃ b h, Ran d {} h b ∧ f b h = true := by
  cases hx : runOps d ops {} [] with
  | none => rw [hx] at h; cases h
  | some x => rw [hx] at h; exact ⟨x.1, x.2, runOps_ran .nil hx, h⟩

end Varisat.Out.Buf
