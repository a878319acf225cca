import Verif.Spec.Unbiased
import Verif.Proof.StatMain

/-! What a diagram contributes on average. -/

namespace Feyn

set_option linter.unusedSectionVars false

section
variable {Q F : Type} [Field Q] [LinearOrder Q] [IsStrictOrderedRing Q] [FloorRing Q] [Field F] [Algebra Q F]
variable {P P' : Params Q F} {d d' : Diag Q F} {s : Measured Q F}

theorem orderFactor_pos (hP : P.Wf) (hf : PosFactors P) (hi : Inv P d) : 0 < orderFactor P d := by
  refine hf.order_pos hP ?_
  rcases hi.count.order with h | h
  · rw [h]; exact hi.count.n_le
  · rw [h.1]; exact Nat.zero_le _

/-- The distribution over the factor of the order. -/
theorem stateWeight_over (hP : P.Wf) (hf : PosFactors P) (hi : Inv P d) (hw : d.worm.exist = false) (hγ : d.hasGamma = 0) :
    stateWeight P d * (orderFactor P d)⁻¹ = labelShare P d * (if d.measG = true then 1 else P.polarRW) * P.mod d.weight := by
  have h := (orderFactor_pos hP hf hi).ne'
  unfold stateWeight target labelShare
  rw [if_neg (by simp [hw]), if_pos hγ]
  unfold orderFactor at h ⊢
  field_simp

/-- The distribution times the booked value is the weight. -/
theorem stateWeight_phase (hP : P.Wf) (hf : PosFactors P) (hp : PolarForm P) (hi : Inv P d) (hw : d.worm.exist = false) (hγ : d.hasGamma = 0) :
    stateWeight P d • ((orderFactor P d)⁻¹ • d.phase) = (labelShare P d * (if d.measG = true then 1 else P.polarRW)) • d.weight := by
  rw [smul_smul, stateWeight_over hP hf hi hw hγ, mul_smul, hi.phase, hp.split]

theorem sigma_share (hP : P.Wf) (hf : PosFactors P) (hp : PolarForm P) (hi : Inv P d) {n j : ℤ} (hm : MeasuresSigma d) (hn : n = d.order) (hc : sigmaCell s d = .ok j) :
    stateWeight P d • sigmaShare P s d n j = labelShare P d • ((sigmaSign s d : F) * d.weight) := by
  have := stateWeight_phase hP hf hp hi hm.1 hm.2.2.2
  rw [if_pos hm.2.1, mul_one] at this
  unfold sigmaShare
  rw [if_pos ⟨hm, hn, hc⟩, ← mul_smul_comm, this, mul_smul_comm]

theorem polar_share (hP : P.Wf) (hf : PosFactors P) (hp : PolarForm P) (hi : Inv P d) {n j : ℤ} (hm : MeasuresPolar d) (hn : n = d.order) (hc : polarCell s d = .ok j) :
    stateWeight P d • polarShare P s d n j = (labelShare P d * P.polarRW) • (-d.weight) := by
  have := stateWeight_phase hP hf hp hi hm.1 hm.2.2.2
  rw [if_neg (by rw [hm.2.1]; decide)] at this
  unfold polarShare
  rw [if_pos ⟨hm, hn, hc⟩, smul_neg, this, smul_neg]

theorem norm_share (hP : P.Wf) (hf : PosFactors P) (hp : PolarForm P) (hi : Inv P d) (mG : Bool) :
    stateWeight P d * normShare P mG d = if d.order = 0 ∧ d.measG = mG then
      labelShare P d * (if mG = true then 1 else P.polarRW) * ((P.lx * P.ly * P.nsub : ℕ) : Q) else 0 := by
  unfold normShare
  by_cases c : d.order = 0 ∧ d.measG = mG
  · have hz : d.worm.exist = false ∧ d.hasGamma = 0 := by
      have := hi.count.n_pos
      rcases hi.count.order with q | q
      · omega
      · exact ⟨q.2.2.1, q.2.2.2⟩
    rw [if_pos ⟨hz.1, c⟩, if_pos c, stateWeight_over hP hf hi hz.1 hz.2, hi.weight, if_pos c.1, normWeight, hp.nat, c.2]
  · rw [if_neg (fun q => c q.2), if_neg c, mul_zero]

end
end Feyn
