import Verif.Proof.Solver.WrittenFile
/-! `close_proof` without failing writes. -/
namespace Varisat.Out

variable {env : Env} {f : Option Format} {check : Bool} {P log : List ProofStep} {o : Sess}

/-- `close_proof` works if writing does. -/
theorem close_total (hio : ∀ n, env.io n = true) (h : Follows env f check P log o) (hnet : f = some .varisat → netClauses log ≤ 2 ^ 32) :
    ∃ o', close env o = some (o', .unit) := by
  have he : o.error = none := by
    cases he : o.error with
    | none => rfl
    | some x =>
      obtain ⟨-, n, k⟩ := h.why x he
      rw [hio] at k; cases k
  obtain ⟨hf, -⟩ := h.keep he
  obtain ⟨o2, ha, h2⟩ : ∃ o2, addStep env o .end_ = some o2 ∧ o2.error = none := by
    unfold addStep
    rw [if_neg (by simp [he])]
    rcases writeOut_full (env := env) (st := .end_) h.bits (fun hf' => by
      rw [h.cnt hf']; simpa [delta] using hnet (hf.symm.trans hf')) with ⟨-, -, q⟩ | ⟨o1, ok, e1, -, -, e4, -⟩
    · cases q
    · obtain rfl := writeOut_io hio e1
      rw [e1]
      simp only
      unfold tell
      split
      · rename_i c hc
        exact ⟨_, rfl, by simpa [he] using e4⟩
      · exact ⟨_, rfl, by rw [e4, he]⟩
  unfold close closeOutput
  rw [ha]
  have h3 : (flush env o2).error = none := by
    unfold flush handleIo
    rw [hio]
    split <;> simpa using h2
  simp only [takeError, h3]
  exact ⟨_, rfl⟩

end Varisat.Out
