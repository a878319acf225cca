import Verif.Proof.UnbTotal
import Verif.Props.Stationary
import Verif.Model.Process

/-! C87: measurements are unbiased. -/

namespace Feyn

set_option linter.unusedSectionVars false

section
variable {Q F : Type} [Field Q] [LinearOrder Q] [IsStrictOrderedRing Q] [FloorRing Q] [Field F] [Algebra Q F]
variable {P P' : Params Q F} {d z : Diag Q F} {s : Measured Q F} {n j : ℤ}

/-- **C87, self energy.** A diagram occurs with the distribution `stateWeight`, and when it is measured it is booked with a value that has only its phase. On average it counts with its complex weight, with the
sign for the order of the two times, and with the share of its labels: not with the reweighting factors. -/
theorem C87_sigma (hP : P.Wf) (hf : PosFactors P) (hp : PolarForm P) (hi : Inv P d) (hm : MeasuresSigma d) (hc : sigmaCell s d = .ok j) :
    stateWeight P d • sigmaShare P s d d.order j = labelShare P d • ((sigmaSign s d : F) * d.weight) := sigma_share hP hf hp hi hm rfl hc

/-- **C87, polarisation.** The same; all diagrams of this section have the factor of the section. -/
theorem C87_polar (hP : P.Wf) (hf : PosFactors P) (hp : PolarForm P) (hi : Inv P d) (hm : MeasuresPolar d) (hc : polarCell s d = .ok j) :
    stateWeight P d • polarShare P s d d.order j = (labelShare P d * P.polarRW) • (-d.weight) := polar_share hP hf hp hi hm rfl hc

/-- **C87, normalisation.** A diagram of order 0 counts with the number of sites (the weight that diagrams of this order have), and with the factor of its section. -/
theorem C87_norm (hP : P.Wf) (hf : PosFactors P) (hp : PolarForm P) (hi : Inv P d) (h0 : d.order = 0) :
    stateWeight P d * normShare P d.measG d = 1 / (2 * ((MOD_K : ℤ) : Q)) * (if d.measG = true then 1 else P.polarRW) * ((P.lx * P.ly * P.nsub : ℕ) : Q) ∧
      stateWeight P d * normShare P (!d.measG) d = 0 := by
  obtain ⟨hn, -, -⟩ := zero_facts hi h0
  constructor
  · rw [norm_share hP hf hp hi, if_pos ⟨h0, rfl⟩]
    unfold labelShare freeTimes
    rw [hn, if_pos h0, pow_one, pow_zero, mul_one]
  · rw [norm_share hP hf hp hi, if_neg]
    rintro ⟨-, q⟩
    cases hm : d.measG <;> rw [hm] at q <;> cases q

/-- **C87, three-point functions.** The booked values (`Recorded.gammaG`, `Recorded.gammaW`) also have the reweighting factor of the composite lines. -/
theorem C87_gamma (hP : P.Wf) (hf : PosFactors P) (hp : PolarForm P) (hi : Inv P d) (hw : d.worm.exist = false) (hγ : d.hasGamma ≠ 0) :
    (d.measG = true → stateWeight P d • ((orderFactor P d * P.gammaGRW)⁻¹ • d.phase) = labelShare P d • d.weight) ∧
      (d.measG = false → stateWeight P d • ((orderFactor P d * P.gammaWRW)⁻¹ • d.phase) = (labelShare P d * P.polarRW) • d.weight) := by
  have h := (orderFactor_pos hP hf hi).ne'
  have h1 := hf.gammaG.ne'
  have h2 := hf.gammaW.ne'
  constructor <;> intro hm
  · have : stateWeight P d * (orderFactor P d * P.gammaGRW)⁻¹ = labelShare P d * P.mod d.weight := by
      unfold stateWeight target labelShare
      rw [if_neg (by simp [hw]), if_pos hm, if_neg hγ, if_pos hm]
      unfold orderFactor at h ⊢
      field_simp
    rw [smul_smul, this, mul_smul, hi.phase, hp.split]
  · have : stateWeight P d * (orderFactor P d * P.gammaWRW)⁻¹ = labelShare P d * P.polarRW * P.mod d.weight := by
      unfold stateWeight target labelShare
      rw [if_neg (by simp [hw]), if_neg (by simp [hm]), if_neg hγ, if_neg (by simp [hm])]
      unfold orderFactor at h ⊢
      field_simp
    rw [smul_smul, this, mul_smul, hi.phase, hp.split]

theorem SameModel.polarForm (h : SameModel P P') (hp : PolarForm P) : PolarForm P' := by
  obtain ⟨a, b, c, e, f, -, rfl⟩ := h
  exact ⟨hp.split, hp.nat⟩

theorem SameModel.labelShare (h : SameModel P P') : Feyn.labelShare P' d = Feyn.labelShare P d := by
  obtain ⟨a, b, c, e, f, -, rfl⟩ := h
  rfl

/-- **C87, the reweighting factors do not matter.** Over any set of diagrams, the sums of what is recorded in a cell, with the distribution that belongs to the factors, are the same for all positive factors; in
the section of measured interactions they are all proportional to the factor of the section. So the ratio of data and normalisation does not depend on the factors. -/
theorem C87_reweight (hP : P.Wf) (hf : PosFactors P) (hf' : PosFactors P') (hp : PolarForm P) (hs : SameModel P P') {X : Finset (Diag Q F)} (hX : ∀ x ∈ X, Inv P x) :
    weighted P' X (fun x => sigmaShare P' s x n j) = weighted P X (fun x => sigmaShare P s x n j) ∧
      weighted P' X (normShare P' true) = weighted P X (normShare P true) ∧
      P.polarRW • weighted P' X (fun x => polarShare P' s x n j) = P'.polarRW • weighted P X (fun x => polarShare P s x n j) ∧
      P.polarRW * weighted P' X (normShare P' false) = P'.polarRW * weighted P X (normShare P false) := by
  have hP' := hs.wf hP
  have hp' := hs.polarForm hp
  have hdim : P'.lx = P.lx ∧ P'.ly = P.ly ∧ P'.nsub = P.nsub := by
    obtain ⟨a, b, c, e, f, -, rfl⟩ := hs
    exact ⟨rfl, rfl, rfl⟩
  unfold weighted
  refine ⟨Finset.sum_congr rfl fun x hx => ?_, Finset.sum_congr rfl fun x hx => ?_, ?_, ?_⟩
  · by_cases q : MeasuresSigma x ∧ n = x.order ∧ sigmaCell s x = .ok j
    · rw [sigma_share hP' hf' hp' (hs.inv (hX x hx)) q.1 q.2.1 q.2.2, sigma_share hP hf hp (hX x hx) q.1 q.2.1 q.2.2, hs.labelShare]
    · have k : ∀ P : Params Q F, sigmaShare P s x n j = 0 := fun P => by unfold sigmaShare; rw [if_neg q]
      simp only [k, smul_zero]
  · rw [smul_eq_mul, smul_eq_mul, norm_share hP' hf' hp' (hs.inv (hX x hx)), norm_share hP hf hp (hX x hx), hs.labelShare, hdim.1, hdim.2.1, hdim.2.2]
    rfl
  · rw [Finset.smul_sum, Finset.smul_sum]
    refine Finset.sum_congr rfl fun x hx => ?_
    by_cases q : MeasuresPolar x ∧ n = x.order ∧ polarCell s x = .ok j
    · rw [polar_share hP' hf' hp' (hs.inv (hX x hx)) q.1 q.2.1 q.2.2, polar_share hP hf hp (hX x hx) q.1 q.2.1 q.2.2, hs.labelShare, smul_smul, smul_smul]
      congr 1
      ring
    · have k : ∀ P : Params Q F, polarShare P s x n j = 0 := fun P => by unfold polarShare; rw [if_neg q]
      simp only [k, smul_zero]
  · rw [Finset.mul_sum, Finset.mul_sum]
    refine Finset.sum_congr rfl fun x hx => ?_
    rw [smul_eq_mul, smul_eq_mul, norm_share hP' hf' hp' (hs.inv (hX x hx)), norm_share hP hf hp (hX x hx), hs.labelShare, hdim.1, hdim.2.1, hdim.2.2]
    by_cases q : x.order = 0 ∧ x.measG = false
    · rw [if_pos q, if_pos q, if_neg (by decide), if_neg (by decide)]
      ring
    · rw [if_neg q, if_neg q, mul_zero, mul_zero]

/-- **C87, there are such sets.** Every good diagram of order 0 has a set of diagrams of first order, each one once, that is closed under the jumps between the two orders. -/
theorem C87_sector (hP : P.Wf) (hf : PosFactors P) (hs : SmallLattice P) (gz : GoodState P z) (h0 : z.order = 0) : ∃ X1, FirstOrders P {z} X1 := by
  classical
  obtain ⟨X, hX⟩ := exists_around hP hs gz (by omega)
  refine ⟨X.filter fun x => ∃ m ∈ allMoves P z, ∃ a d', m.accepted P z = some (a, d') ∧ SameUpToCells d' x, ?_⟩
  have key : ∀ x ∈ X.filter (fun x => ∃ m ∈ allMoves P z, ∃ a d', m.accepted P z = some (a, d') ∧ SameUpToCells d' x),
      x ∈ X ∧ ∃ c ∈ jumps P, ∃ a d', (jump c).accepted P z = some (a, d') ∧ SameUpToCells d' x := by
    intro x hx
    obtain ⟨hx, m, hm, a, d', ha, sx⟩ := Finset.mem_filter.1 hx
    obtain ⟨out, er, hacc, -, rfl, -⟩ := accepted_ex ha
    obtain ⟨r, t1, t2, s1, s2, rfl⟩ := Move.of_zero gz.inv h0 er hacc
    exact ⟨hx, _, mem_jump hP hm, a, _, ha, sx⟩
  refine ⟨by simpa using gz, by simpa using h0, fun x hx => hX.good x (key x hx).1, ?_, ?_, ?_, ?_, ?_⟩
  · intro x hx
    obtain ⟨-, c, hc, a, d', ha, fV, fG, fW, sx⟩ := key x hx
    obtain ⟨-, hw, hγ⟩ := zero_facts gz.inv h0
    obtain ⟨w, ph, wt, e⟩ := (landing_of hP hf gz.inv h0 c).2 d' (by unfold landing; rw [ha]; rfl)
    obtain ⟨-, -, -, -, -, -, -, -, f9, f10, f11, -⟩ := landed_frame e
    exact ⟨by rw [sx.order, f11], by rw [sx.exist, f9, hw], by rw [sx.hasGamma, f10, hγ]⟩
  · intro z1 h1 z2 h2 _
    rw [Finset.mem_singleton] at h1 h2
    rw [h1, h2]
  · exact fun x hx x' hx' => hX.differ x (key x hx).1 x' (key x' hx').1
  · intro z1 h1 m hm a d' ha
    rw [Finset.mem_singleton] at h1
    subst h1
    obtain ⟨x, hx, sx⟩ := hX.cover m hm a d' ha
    exact ⟨x, Finset.mem_filter.2 ⟨hx, m, hm, a, d', ha, sx⟩, sx⟩
  · intro x hx a d' ha
    refine ⟨z, Finset.mem_singleton_self z, ?_⟩
    obtain ⟨hx', c, hc, a', d₁, ha', sx⟩ := key x hx
    have gx := hX.good x hx'
    obtain ⟨n, b, e₁, pt⟩ := exists_partner hP hf gz gx (jump_mem z hc) ha' sx
    obtain ⟨out, er, hacc, -, e, -⟩ := accepted_ex pt.acc
    have hs' := pt.same
    have : out.d.order = 0 := by
      obtain ⟨_, _, _, sy⟩ := pt.same
      rw [e, ← sy.order, h0]
    obtain rfl := Move.to_zero hP gx.inv er hacc this
    have := pt.acc
    rw [ha] at this
    cases this
    exact hs'

end

section
variable {Q F : Type} [Field Q] [LinearOrder Q] [IsStrictOrderedRing Q] [FloorRing Q] [Field F] [StarRing F] [Algebra Q F]
variable {P : Params Q F} {bins : ℕ} {g w w0 : NArr F} {s : Measured Q F} {X0 X1 : Finset (Diag Q F)}

theorem norm_arith {N K β lx ly nsub bins off R : Q} (hb : β ≠ 0) (h1 : lx * ly ≠ 0) :
    lx * ly * nsub * (bins / β) / β / (lx * ly) * (N * (lx * ly * off) * (K * (β / 4294967296) ^ 2 * R)) = N * (K * R * (lx * ly * nsub)) * (bins * off / 4294967296 ^ 2) := by
  have a := left_ne_zero_of_mul h1
  have b := right_ne_zero_of_mul h1
  field_simp

open Classical in
/-- **C87, partial: first order of the self energy.** Take all diagrams of orders 0 and 1 that are connected by the jumps between them. The sum of what is recorded for a cell, over the sum of what is recorded for
the normalisation, times the norm of the estimator, is the element of the array that Python computes for the first order; the factor of proportionality differs from one by at most the number of time bins over
the number of times of the generator.

Full statement: without the restriction to times that do not differ by a multiple of the width of a bin. Missing: these border cases, of which there are one in (number of times over number of bins); the code
sorts them in the bin of one of the two directions only. -/
theorem C87_first_sigma_partial (hP : P.Wf) (hf : PosFactors P) (hp : PolarForm P) (hX : FirstOrders P X0 X1)
    (hl : FromArrays P bins g w w0) (hw0 : NoOnsite P.nsub w0) (hwe : EndsAlike P.nsub bins w) (hs : s.Fits P 2) (hb : s.map.bins = bins) (hsym : s.map.sym = -1)
    (hN : s.est.norm = ((P.lx * P.ly * P.nsub : ℕ) : Q) * ((bins : Q) / P.beta) / P.beta / ((P.lx * P.ly : ℕ) : Q))
    {σ : Spin} {a t : ℤ} (he : Element 2 P.nsub (P.lx * P.ly) bins (pySpin σ) a (pySpin σ) a 0 t) :
    ∃ κ : Q, |κ - 1| ≤ bins / 4294967296 ∧
      s.est.norm • weighted P X1 (fun x => if OffSigma P bins x then sigmaShare P s x 1 (ravel g.shape [pySpin σ, a, pySpin σ, a, 0, t]) else 0) =
        weighted P X0 (normShare P true) • (κ • pySigmaFirst g w [pySpin σ, a, pySpin σ, a, 0, t]) := by
  refine ⟨(bins : Q) * offPairs P bins t / 4294967296 ^ 2, offPairs_share hP hl.pos he.t.1 he.t.2, ?_⟩
  have e1 : weighted P X1 (fun x => if OffSigma P bins x then sigmaShare P s x 1 (ravel g.shape [pySpin σ, a, pySpin σ, a, 0, t]) else 0) =
      ∑ x ∈ X1, sigmaTerm P s bins (ravel g.shape [pySpin σ, a, pySpin σ, a, 0, t]) x := by
    unfold weighted sigmaTerm
    refine Finset.sum_congr rfl fun x _ => ?_
    rw [smul_ite, smul_zero]
  have hne : ((P.lx : Q) * P.ly) ≠ 0 := by
    have a := hP.lx_pos
    have b := hP.ly_pos
    positivity
  rw [e1, sigma_total hP hf hp hX hl hw0 hwe hs hb hsym he]
  unfold weighted
  rw [norm_total hP hf hp hX true, ← Nat.cast_smul_eq_nsmul Q, smul_smul, smul_smul, smul_smul, hN]
  congr 1
  unfold timeStep
  rw [if_pos rfl]
  push_cast
  linear_combination norm_arith (N := ((X0.filter fun z => z.measG = true).card : Q)) (K := 1 / (2 * ((MOD_K : ℤ) : Q))) (nsub := P.nsub) (bins := bins) (off := offPairs P bins t) (R := 1) hP.beta_pos.ne' hne

open Classical in
/-- **C87, partial: first order of the polarisation.** The same. -/
theorem C87_first_polar_partial (hP : P.Wf) (hf : PosFactors P) (hp : PolarForm P) (hX : FirstOrders P X0 X1)
    (hl : FromArrays P bins g w w0) (hs : s.Fits P 4) (hb : s.map.bins = bins)
    (hN : s.est.norm = ((P.lx * P.ly * P.nsub : ℕ) : Q) * ((bins : Q) / P.beta) / P.beta / ((P.lx * P.ly : ℕ) : Q))
    {σ σ' : Spin} {a t : ℤ} (he : Element 4 P.nsub (P.lx * P.ly) bins (2 * pySpin σ + pySpin σ') a (2 * pySpin σ' + pySpin σ) a 0 t) :
    ∃ κ : Q, |κ - 1| ≤ bins / 4294967296 ∧
      s.est.norm • weighted P X1 (fun x => if OffPolar P bins x then polarShare P s x 1 (ravel w.shape [2 * pySpin σ + pySpin σ', a, 2 * pySpin σ' + pySpin σ, a, 0, t]) else 0) =
        weighted P X0 (normShare P false) • (κ • pyPolarFirst bins g [2 * pySpin σ + pySpin σ', a, 2 * pySpin σ' + pySpin σ, a, 0, t]) := by
  refine ⟨(bins : Q) * offPairs P bins t / 4294967296 ^ 2, offPairs_share hP hl.pos he.t.1 he.t.2, ?_⟩
  have e1 : weighted P X1 (fun x => if OffPolar P bins x then polarShare P s x 1 (ravel w.shape [2 * pySpin σ + pySpin σ', a, 2 * pySpin σ' + pySpin σ, a, 0, t]) else 0) =
      ∑ x ∈ X1, polarTerm P s bins (ravel w.shape [2 * pySpin σ + pySpin σ', a, 2 * pySpin σ' + pySpin σ, a, 0, t]) x := by
    unfold weighted polarTerm
    refine Finset.sum_congr rfl fun x _ => ?_
    rw [smul_ite, smul_zero]
  have hne : ((P.lx : Q) * P.ly) ≠ 0 := by
    have a := hP.lx_pos
    have b := hP.ly_pos
    positivity
  rw [e1, polar_total hP hf hp hX hl hs hb he]
  unfold weighted
  rw [norm_total hP hf hp hX false, ← Nat.cast_smul_eq_nsmul Q, smul_smul, smul_smul, smul_smul, hN]
  congr 1
  unfold timeStep
  rw [if_neg (by decide)]
  push_cast
  linear_combination norm_arith (N := ((X0.filter fun z => z.measG = false).card : Q)) (K := 1 / (2 * ((MOD_K : ℤ) : Q))) (nsub := P.nsub) (bins := bins) (off := offPairs P bins t) (R := P.polarRW) hP.beta_pos.ne' hne

/-- The norm in the two theorems is that of a new estimator. -/
theorem C87_estimator {R : Type} {p : ParaMC Q R} {sp sym : ℤ} {junk : ℤ → F} (h : Measured.allocate p sp sym junk = .ok s) :
    s.est.norm = ((p.lx * p.ly * p.nsub : ℕ) : Q) * ((p.bins : Q) / p.beta) / p.beta / ((p.lx * p.ly : ℕ) : Q) ∧ s.map = ⟨p.beta, p.bins, [(p.lx : ℤ), (p.ly : ℤ)], p.nsub, sp, sym⟩ := by
  unfold Measured.allocate at h
  obtain ⟨est, e, h⟩ := bind_eq_ok h
  cases h
  unfold Histo.allocate at e
  simp only at e
  split_ifs at e
  cases e
  exact ⟨rfl, rfl⟩

end

/-! ### Concrete cases -/

/-- Absolute values and phases of complex numbers. -/
example (P : Params ℝ ℂ) (h1 : P.mod = complexMod) (h2 : P.ph = complexPhase) : PolarForm P := by
  constructor
  · intro w
    rw [h1, h2]
    show ‖w‖ • (w / ((‖w‖ : ℝ) : ℂ)) = w
    rcases eq_or_ne w 0 with rfl | h
    · simp
    · have : ((‖w‖ : ℝ) : ℂ) ≠ 0 := by simpa using h
      rw [Complex.real_smul]
      field_simp
  · intro n
    rw [h1]
    show ‖(n : ℂ)‖ = n
    simp

theorem firstP_polar : PolarForm firstP := by
  constructor
  · intro w
    show |w| • (if w = 0 then (0 : ℚ) else if 0 < w then 1 else -1) = w
    rcases lt_trichotomy w 0 with h | h | h
    · rw [if_neg h.ne, if_neg (not_lt.2 h.le), abs_of_neg h]; simp
    · simp [h]
    · rw [if_neg h.ne', if_pos h, abs_of_pos h]; simp
  · intro n
    show |(n : ℚ)| = n
    exact abs_of_nonneg (Nat.cast_nonneg n)

theorem firstP_pos : PosFactors firstP := by constructor <;> simp [firstP, Params.load, demoP]

/-- The tables of the demonstration with the norm of a new estimator. -/
def unbMeasured (sp : ℤ) : Measured ℚ ℚ := { demoMeasured sp with est := { (demoMeasured sp).est with norm := 2 } }

theorem unbMeasured_fits {sp : ℤ} (h : sp = 2 ∨ sp = 4) : (unbMeasured sp).Fits firstP sp := by
  have := firstMeasured_fits (P := firstP) h rfl rfl rfl rfl rfl
  exact ⟨this.map, this.beta, this.lat, this.nsub, this.sp, ⟨this.est.orders_pos, this.est.size_pos, this.est.fits, this.est.cells, this.est.perOrder⟩⟩

/-- A run of the simulation with arrays reaches order 0. -/
theorem first_zero : ∃ c, Reach firstP c ∧ GoodState firstP c.d ∧ c.d.order = 0 ∧ c.d.measG = true := by
  have hv : (startChain firstP >>= fun c => hopNZ c [goZero]).test (fun c => c.d.order == 0 && c.d.measG && decide (∀ w ∈ c.d.W.live, c.d.fl.wDelta w = false)) = true := by decide +kernel
  obtain ⟨c, ec, hc⟩ := Res.test_ok hv
  obtain ⟨s, es, ec⟩ := bind_eq_ok ec
  obtain ⟨d, ed, es⟩ := bind_eq_ok es
  cases es
  have hr := reachD_hops (ReachD.start demoRaw d demoRaw_fresh ed) ec
  have hp : c.P = firstP := hopNZ_P ec
  have hg : OnGrid c.P c.d := C58_grid firstP_wf firstP_start demoRaw_fresh ed
    (hopNZ_hopsD firstP_wf firstP_start (ReachD.start demoRaw d demoRaw_fresh ed) (.refl _) ec).hops
  simp only [Bool.and_eq_true, beq_iff_eq, decide_eq_true_eq] at hc
  obtain ⟨⟨h1, h2⟩, h3⟩ := hc
  have gz := C86_good firstP_wf firstP_start hr hg fun _ => h3
  rw [hp] at gz
  exact ⟨c, hr.reach, gz, h1, h2⟩

theorem first_onsite : NoOnsite firstP.nsub firstW0 := by
  intro s s' a h1 h2 h3 h4 h5 h6
  have h6 : a < 1 := h6
  have : a = 0 := by omega
  subst this
  have e : ravel [4, 1, 4, 1, 4] [s, 0, s', 0, 0] = 4 * (4 * s + s') := by simp [ravel]; ring
  simp only [NArr.get, firstW0, e]
  rw [if_pos (by omega)]

open Classical in
/-- The hypotheses are met: a run of the simulation with arrays reaches order 0; the self energy of first order that is recorded for spin 0 and time bin 0 is the number of Python, -25, up to a
relative error below `10 ^ -9`. -/
example : ∃ (c : Chain ℚ ℚ) (X1 : Finset (Diag ℚ ℚ)), Reach firstP c ∧ c.d.order = 0 ∧ c.d.measG = true ∧ FirstOrders firstP {c.d} X1 ∧ 0 < weighted firstP {c.d} (normShare firstP true) ∧
    ∃ κ : ℚ, |κ - 1| ≤ 2 / 4294967296 ∧ (2 : ℚ) • weighted firstP X1 (fun x => if OffSigma firstP 2 x then sigmaShare firstP (unbMeasured 2) x 1 0 else 0) =
      weighted firstP {c.d} (normShare firstP true) • (κ • (-25)) := by
  obtain ⟨c, hr, gz, h1, h2⟩ := first_zero
  obtain ⟨X1, hX⟩ := C87_sector firstP_wf firstP_pos ⟨by norm_num [firstP, Params.load, demoP], by norm_num [firstP, Params.load, demoP], by norm_num [firstP, Params.load, demoP]⟩ gz h1
  have hb : weighted firstP {c.d} (normShare firstP true) = 1 / (2 * ((MOD_K : ℤ) : ℚ)) * 4 := by
    have := (C87_norm firstP_wf firstP_pos firstP_polar gz.inv h1).1
    rw [h2] at this
    unfold weighted
    rw [Finset.sum_singleton, smul_eq_mul, this]
    norm_num [firstP, Params.load, demoP]
  obtain ⟨κ, k1, k2⟩ := C87_first_sigma_partial firstP_wf firstP_pos firstP_polar hX firstP_arrays (s := unbMeasured 2)
    first_onsite
    (fun _ _ _ _ _ _ _ _ _ _ _ _ => rfl) (unbMeasured_fits (.inl rfl)) rfl rfl (by norm_num [unbMeasured, firstP, Params.load, demoP])
    (σ := DOWN) (a := 0) (t := 0) (by constructor <;> decide)
  refine ⟨c, X1, hr, h1, h2, hX, ?_, κ, by exact_mod_cast k1, ?_⟩
  · rw [hb]; norm_num
  · have e : pySigmaFirst firstG firstW [pySpin DOWN, 0, pySpin DOWN, 0, 0, 0] = -25 := by decide +kernel
    rw [e] at k2
    exact k2

/-- Other reweighting factors: the sums for the self energy and the normalisation do not change, those of the polarisation are five times as large. -/
example : ∃ (P' : Params ℚ ℚ) (c : Chain ℚ ℚ), SameModel firstP P' ∧ PosFactors P' ∧ P'.orderRW = [3, 2, 1, 7] ∧ P'.polarRW = 5 ∧ Reach firstP c ∧
    weighted P' {c.d} (normShare P' true) = weighted firstP {c.d} (normShare firstP true) ∧ 0 < weighted firstP {c.d} (normShare firstP true) := by
  obtain ⟨c, hr, gz, h1, h2⟩ := first_zero
  have hs : SameModel firstP { firstP with orderRW := [3, 2, 1, 7], wormRW := 2, polarRW := 5, gammaGRW := 1, gammaWRW := 1 } := ⟨[3, 2, 1, 7], 2, 5, 1, 1, rfl, rfl⟩
  have hf : PosFactors { firstP with orderRW := [3, 2, 1, 7], wormRW := 2, polarRW := 5, gammaGRW := 1, gammaWRW := 1 } := by constructor <;> simp
  refine ⟨_, c, hs, hf, rfl, rfl, hr, (C87_reweight (s := demoMeasured 2) (n := 1) (j := 0) firstP_wf firstP_pos hf firstP_polar hs (by simpa using gz.inv)).2.1, ?_⟩
  unfold weighted
  rw [Finset.sum_singleton, smul_eq_mul]
  have := (C87_norm firstP_wf firstP_pos firstP_polar gz.inv h1).1
  rw [h2] at this
  rw [this]
  norm_num [firstP, Params.load, demoP]

/-- A diagram with a composite line. -/
example : ∃ c, Reach demoP3 c ∧ Inv c.P c.d ∧ c.d.worm.exist = false ∧ c.d.hasGamma = 1 ∧ c.d.measG = true := by
  obtain ⟨c, hr, hc⟩ := demo_reach (P := demoP3) [hopWords 23 19 [1, urnWord 1 3, zeroWord]] (fun c => !c.d.worm.exist && c.d.hasGamma == 1 && c.d.measG) (by decide +kernel)
  simp only [Bool.and_eq_true, beq_iff_eq, Bool.not_eq_true'] at hc
  exact ⟨c, hr, (hr.inv demoP3_wf demoP3_start).2, hc.1.1, hc.1.2, hc.2⟩

end Feyn
