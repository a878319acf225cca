import Verif.Proof.UnbFirst

/-! The sums over all diagrams of first order. -/

namespace Feyn

set_option linter.unusedSectionVars false

section
variable {Q F : Type} [Field Q] [LinearOrder Q] [IsStrictOrderedRing Q] [FloorRing Q] [Field F] [StarRing F] [Algebra Q F]
variable {P : Params Q F} {d d' z x : Diag Q F} {bins : ℕ} {g w w0 : NArr F} {s : Measured Q F} {X0 X1 : Finset (Diag Q F)}

/-- What the measurement of the self energy reads is the same in other cells. -/
theorem SameUpToCells.sigma (h : SameUpToCells d d') (hi : Inv P d) (j : ℤ) : sigmaTerm P s bins j d = sigmaTerm P s bins j d' := by
  have hW := h.stateWeight (P := P)
  obtain ⟨fV, fG, fW, h⟩ := h
  have e1 : MeasuresSigma d' ↔ MeasuresSigma d := by
    unfold MeasuresSigma
    rw [h.exist, h.measG, h.order, h.hasGamma]
  by_cases hm : MeasuresSigma d
  · have ho : d.order ≠ 0 := by have := hm.2.2.1; omega
    have hg := hi.meas.g_mem hm.2.1
    have k : ∀ e, d'.sh.gV d'.gMeasure e = fV (d.sh.gV d.gMeasure e) := fun e => by rw [h.gMeasure hm.2.1, h.gV _ hg]
    have kc : ∀ e, d'.co.r (d'.sh.gV d'.gMeasure e) = d.co.r (d.sh.gV d.gMeasure e) ∧ d'.co.tau (d'.sh.gV d'.gMeasure e) = d.co.tau (d.sh.gV d.gMeasure e) ∧
        d'.co.spin (d'.sh.gV d'.gMeasure e) = d.co.spin (d.sh.gV d.gMeasure e) := fun e => by
      rw [k]; exact h.co ho _ (hi.topo.gV_mem _ hg e)
    have c1 : OffSigma P bins d' ↔ OffSigma P bins d := by
      unfold OffSigma
      rw [(kc OUT).2.1, (kc IN).2.1]
    have c2 : sigmaCell s d' = sigmaCell s d := by
      unfold sigmaCell
      simp only [(kc OUT).1, (kc OUT).2.1, (kc OUT).2.2, (kc IN).1, (kc IN).2.1, (kc IN).2.2]
    have c3 : sigmaSign s d' = sigmaSign s d := by
      unfold sigmaSign
      rw [(kc OUT).2.1, (kc IN).2.1]
    have c4 : orderFactor P d' = orderFactor P d := by
      unfold orderFactor
      rw [h.order]
    unfold sigmaTerm sigmaShare
    simp only [c2, c3, c4, e1, hW, h.order, h.phase]
    by_cases q : OffSigma P bins d
    · rw [if_pos q, if_pos (c1.2 q)]
    · rw [if_neg q, if_neg (fun h => q (c1.1 h))]
  · have z1 : sigmaShare P s d 1 j = 0 := by unfold sigmaShare; rw [if_neg (fun q => hm q.1)]
    have z2 : sigmaShare P s d' 1 j = 0 := by unfold sigmaShare; rw [if_neg (fun q => hm (e1.1 q.1))]
    unfold sigmaTerm
    rw [z1, z2, smul_zero, smul_zero, ite_self, ite_self]

theorem SameUpToCells.polar (h : SameUpToCells d d') (hi : Inv P d) (j : ℤ) : polarTerm P s bins j d = polarTerm P s bins j d' := by
  have hW := h.stateWeight (P := P)
  obtain ⟨fV, fG, fW, h⟩ := h
  have e1 : MeasuresPolar d' ↔ MeasuresPolar d := by
    unfold MeasuresPolar
    rw [h.exist, h.measG, h.order, h.hasGamma]
  by_cases hm : MeasuresPolar d
  · have ho : d.order ≠ 0 := by have := hm.2.2.1; omega
    have hg := hi.meas.w_mem hm.2.1
    have k : ∀ e, d'.sh.wV d'.wMeasure e = fV (d.sh.wV d.wMeasure e) := fun e => by rw [h.wMeasure hm.2.1, h.wV _ hg]
    have kc : ∀ e, d'.co.r (d'.sh.wV d'.wMeasure e) = d.co.r (d.sh.wV d.wMeasure e) ∧ d'.co.tau (d'.sh.wV d'.wMeasure e) = d.co.tau (d.sh.wV d.wMeasure e) ∧
        d'.co.spin (d'.sh.wV d'.wMeasure e) = d.co.spin (d.sh.wV d.wMeasure e) := fun e => by
      rw [k]; exact h.co ho _ (hi.topo.wV_mem _ hg e)
    have c1 : OffPolar P bins d' ↔ OffPolar P bins d := by
      unfold OffPolar
      rw [(kc OUT).2.1, (kc IN).2.1]
    have c2 : polarCell s d' = polarCell s d := by
      unfold polarCell
      simp only [(kc OUT).1, (kc OUT).2.1, (kc OUT).2.2, (kc IN).1, (kc IN).2.1, (kc IN).2.2]
    have c4 : orderFactor P d' = orderFactor P d := by
      unfold orderFactor
      rw [h.order]
    unfold polarTerm polarShare
    simp only [c2, c4, e1, hW, h.order, h.phase]
    by_cases q : OffPolar P bins d
    · rw [if_pos q, if_pos (c1.2 q)]
    · rw [if_neg q, if_neg (fun h => q (c1.1 h))]
  · have z1 : polarShare P s d 1 j = 0 := by unfold polarShare; rw [if_neg (fun q => hm q.1)]
    have z2 : polarShare P s d' 1 j = 0 := by unfold polarShare; rw [if_neg (fun q => hm (e1.1 q.1))]
    unfold polarTerm
    rw [z1, z2, smul_zero, smul_zero, ite_self, ite_self]

open Classical in
/-- A diagram of the other section contributes nothing. -/
theorem landing_other (hP : P.Wf) (hf : PosFactors P) (hi : Inv P z) (h0 : z.order = 0) (c : Site × Q × Q × Bool × Bool) (j : ℤ) :
    (z.measG = false → ((landing P z c).map (sigmaTerm P s bins j)).getD 0 = 0) ∧ (z.measG = true → ((landing P z c).map (polarTerm P s bins j)).getD 0 = 0) := by
  obtain ⟨-, l2⟩ := landing_of hP hf hi h0 c
  constructor <;> intro hm <;> cases hL : landing P z c with
  | none => rfl
  | some d' =>
    obtain ⟨wd, ph, wt, e⟩ := l2 _ hL
    obtain ⟨-, -, -, -, -, f6, -⟩ := landed_frame e
    rw [hm] at f6
    rw [Option.map_some, Option.getD_some]
    first
    | (have z1 : sigmaShare P s d' 1 j = 0 := by unfold sigmaShare; rw [if_neg (fun q => by have := q.1.2.1; rw [f6] at this; cases this)]
       show (if _ then stateWeight P d' • sigmaShare P s d' 1 j else 0) = 0
       rw [z1, smul_zero, ite_self])
    | (have z1 : polarShare P s d' 1 j = 0 := by unfold polarShare; rw [if_neg (fun q => by have := q.1.2.1; rw [f6] at this; cases this)]
       show (if _ then stateWeight P d' • polarShare P s d' 1 j else 0) = 0
       rw [z1, smul_zero, ite_self])

open Classical in
theorem sigma_total (hP : P.Wf) (hf : PosFactors P) (hp : PolarForm P) (hX : FirstOrders P X0 X1)
    (hl : FromArrays P bins g w w0) (hw0 : NoOnsite P.nsub w0) (hwe : EndsAlike P.nsub bins w) (hs : s.Fits P 2) (hb : s.map.bins = bins) (hsym : s.map.sym = -1)
    {σ : Spin} {α t : ℤ} (he : Element 2 P.nsub (P.lx * P.ly) bins (pySpin σ) α (pySpin σ) α 0 t) :
    ∑ x ∈ X1, sigmaTerm P s bins (ravel g.shape [pySpin σ, α, pySpin σ, α, 0, t]) x =
      ((X0.filter fun z => z.measG = true).card * (P.lx * P.ly * offPairs P bins t)) •
        ((1 / (2 * ((MOD_K : ℤ) : Q)) * timeStep P ^ 2) • pySigmaFirst g w [pySpin σ, α, pySpin σ, α, 0, t]) := by
  rw [first_sum hP hf hX _ fun d e h hi => h.sigma hi _]
  have : ∀ z ∈ X0, ∑ c ∈ jumps P, ((landing P z c).map (sigmaTerm P s bins (ravel g.shape [pySpin σ, α, pySpin σ, α, 0, t]))).getD 0 =
      if z.measG = true then (P.lx * P.ly * offPairs P bins t) • ((1 / (2 * ((MOD_K : ℤ) : Q)) * timeStep P ^ 2) • pySigmaFirst g w [pySpin σ, α, pySpin σ, α, 0, t]) else 0 := by
    intro z hz
    split_ifs with hm
    · rw [Finset.sum_congr rfl fun c hc => landing_sigma hP hf hp (hX.good0 z hz) (hX.order0 z hz) hm hl hw0 hwe hs hb hsym he hc rfl]
      rw [turned_sum _ (fun y : Site × Q × Q × Bool × Bool => if OffBins P.beta bins y.2.1 y.2.2.1 ∧ y.2.2.2.2 = σ ∧ y.1.sub = α ∧ pyTauIndex P.beta bins y.2.1 y.2.2.1 = t then
        (1 / (2 * ((MOD_K : ℤ) : Q)) * timeStep P ^ 2) • fockTerm g w σ y.2.2.2.1 α t else 0)]
      rw [jumps_sum (h := fun o => (1 / (2 * ((MOD_K : ℤ) : Q)) * timeStep P ^ 2) • fockTerm g w σ o α t) he.a.1 he.a.2, C72_python_sigma]
      simp only [smul_add]
    · exact Finset.sum_eq_zero fun c _ => (landing_other hP hf (hX.good0 z hz).inv (hX.order0 z hz) c _).1 (by simpa using hm)
  rw [Finset.sum_congr rfl this, ← Finset.sum_filter, Finset.sum_const, smul_smul]

open Classical in
theorem polar_total (hP : P.Wf) (hf : PosFactors P) (hp : PolarForm P) (hX : FirstOrders P X0 X1)
    (hl : FromArrays P bins g w w0) (hs : s.Fits P 4) (hb : s.map.bins = bins)
    {σ σ' : Spin} {α t : ℤ} (he : Element 4 P.nsub (P.lx * P.ly) bins (2 * pySpin σ + pySpin σ') α (2 * pySpin σ' + pySpin σ) α 0 t) :
    ∑ x ∈ X1, polarTerm P s bins (ravel w.shape [2 * pySpin σ + pySpin σ', α, 2 * pySpin σ' + pySpin σ, α, 0, t]) x =
      ((X0.filter fun z => z.measG = false).card * (P.lx * P.ly * offPairs P bins t)) •
        ((1 / (2 * ((MOD_K : ℤ) : Q)) * timeStep P ^ 2 * P.polarRW) • pyPolarFirst bins g [2 * pySpin σ + pySpin σ', α, 2 * pySpin σ' + pySpin σ, α, 0, t]) := by
  rw [first_sum hP hf hX _ fun d e h hi => h.polar hi _]
  have : ∀ z ∈ X0, ∑ c ∈ jumps P, ((landing P z c).map (polarTerm P s bins (ravel w.shape [2 * pySpin σ + pySpin σ', α, 2 * pySpin σ' + pySpin σ, α, 0, t]))).getD 0 =
      if z.measG = false then (P.lx * P.ly * offPairs P bins t) • ((1 / (2 * ((MOD_K : ℤ) : Q)) * timeStep P ^ 2 * P.polarRW) •
        pyPolarFirst bins g [2 * pySpin σ + pySpin σ', α, 2 * pySpin σ' + pySpin σ, α, 0, t]) else 0 := by
    intro z hz
    split_ifs with hm
    · rw [Finset.sum_congr rfl fun c hc => landing_polar hP hf hp (hX.good0 z hz) (hX.order0 z hz) hm hl hs hb he hc rfl]
      rw [turned_sum _ (fun y : Site × Q × Q × Bool × Bool => if OffBins P.beta bins y.2.1 y.2.2.1 ∧ y.2.2.2.2 = σ ∧ y.1.sub = α ∧ pyTauIndex P.beta bins y.2.1 y.2.2.1 = t then
        (if y.2.2.2.1 = σ' then (1 / (2 * ((MOD_K : ℤ) : Q)) * timeStep P ^ 2 * P.polarRW) • bubbleTerm bins g σ σ' α t else 0) else 0)]
      rw [jumps_sum (h := fun o => if o = σ' then (1 / (2 * ((MOD_K : ℤ) : Q)) * timeStep P ^ 2 * P.polarRW) • bubbleTerm bins g σ σ' α t else 0) he.a.1 he.a.2, C72_python_polar]
      congr 1
      cases σ' <;> simp
    · exact Finset.sum_eq_zero fun c _ => (landing_other hP hf (hX.good0 z hz).inv (hX.order0 z hz) c _).2 (by simpa using hm)
  rw [Finset.sum_congr rfl this, ← Finset.sum_filter, Finset.sum_const, smul_smul]

theorem norm_total (hP : P.Wf) (hf : PosFactors P) (hp : PolarForm P) (hX : FirstOrders P X0 X1) (mG : Bool) :
    ∑ z ∈ X0, stateWeight P z • normShare P mG z = (X0.filter fun z => z.measG = mG).card *
      (1 / (2 * ((MOD_K : ℤ) : Q)) * (if mG = true then 1 else P.polarRW) * ((P.lx * P.ly * P.nsub : ℕ) : Q)) := by
  have : ∀ z ∈ X0, stateWeight P z • normShare P mG z =
      if z.measG = mG then 1 / (2 * ((MOD_K : ℤ) : Q)) * (if mG = true then 1 else P.polarRW) * ((P.lx * P.ly * P.nsub : ℕ) : Q) else 0 := by
    intro z hz
    have h0 := hX.order0 z hz
    obtain ⟨hn, -, -⟩ := zero_facts (hX.good0 z hz).inv h0
    rw [smul_eq_mul, norm_share hP hf hp (hX.good0 z hz).inv]
    have : labelShare P z = 1 / (2 * ((MOD_K : ℤ) : Q)) := by
      unfold labelShare freeTimes
      rw [hn, if_pos h0, pow_one, pow_zero, mul_one]
    rw [this]
    by_cases q : z.measG = mG
    · rw [if_pos ⟨h0, q⟩, if_pos q]
    · rw [if_neg (fun h => q h.2), if_neg q]
  rw [Finset.sum_congr rfl this, ← Finset.sum_filter, Finset.sum_const, nsmul_eq_mul]

end
end Feyn
