import Verif.Proof.Popov
import Mathlib.Analysis.Calculus.MeanValue
import Mathlib.Analysis.SpecialFunctions.ExpDeriv
import Mathlib.Analysis.SpecialFunctions.Trigonometric.Basic

/-!
# The bare propagator of the spin models (C69)
-/

namespace Feyn
open Complex (I exp)

theorem occ_sum (f : Occ → ℂ) : ∑ n : Occ, f n = f ![false, false] + f ![false, true] + f ![true, false] + f ![true, true] := by
  have h : (Finset.univ : Finset Occ) = {![false, false], ![false, true], ![true, false], ![true, true]} := by decide
  rw [h, Finset.sum_insert (by decide), Finset.sum_insert (by decide), Finset.sum_insert (by decide), Finset.sum_singleton]
  ring

theorem occ_mu (mu : Fin 2 → ℂ) (a b : Bool) : Occ.mu ![a, b] mu = (if a then mu 0 else 0) + (if b then mu 1 else 0) := by
  rw [Occ.mu, Fin.sum_univ_two]
  rfl

theorem occ_exp (mu : Fin 2 → ℂ) (beta : ℝ) (a b : Bool) :
    exp (beta * Occ.mu ![a, b] mu) = (if a then exp (mu 0 * beta) else 1) * (if b then exp (mu 1 * beta) else 1) := by
  rw [occ_mu, mul_add, Complex.exp_add]
  cases a <;> cases b <;> simp [mul_comm]

theorem fockZ_eq (mu : Fin 2 → ℂ) (beta : ℝ) : fockZ mu beta = (1 + exp (mu 0 * beta)) * (1 + exp (mu 1 * beta)) := by
  rw [fockZ, occ_sum]
  simp only [occ_exp]
  simp
  ring

/-- **C69**: the formula of the code is the propagator of a fermion on an isolated site, for any chemical potentials for which there is one. -/
theorem C69_propagator (mu : Fin 2 → ℂ) (beta tau : ℝ) (s : Fin 2) (hz : fockZ mu beta ≠ 0) : expKernel (mu s) beta tau = fockG mu beta tau s := by
  have hz' := hz
  rw [fockZ_eq] at hz'
  obtain ⟨h0, h1⟩ := mul_ne_zero_iff.1 hz'
  have e : ∀ x : ℂ, exp ((beta - tau : ℝ) * x) * exp (tau * x) = exp (x * beta) := by
    intro x
    rw [← Complex.exp_add]
    push_cast
    congr 1
    ring
  have u0 : ∀ b c, Function.update (![b, c] : Occ) 0 true = ![true, c] := by decide
  have u1 : ∀ b c, Function.update (![b, c] : Occ) 1 true = ![b, true] := by decide
  rw [fockG, fockZ_eq, occ_sum, expKernel, div_eq_div_iff]
  · fin_cases s
    · have := e (mu 1)
      simp only [Fin.zero_eta, u0, occ_mu, mul_add, Complex.exp_add]
      simp [mul_comm (tau : ℂ)] at this ⊢
      linear_combination (- exp (mu 0 * tau) * (1 + exp (mu 0 * beta))) * this
    · have := e (mu 0)
      simp only [Fin.mk_one, u1, occ_mu, mul_add, Complex.exp_add]
      simp [mul_comm (tau : ℂ)] at this ⊢
      linear_combination (- exp (mu 1 * tau) * (1 + exp (mu 1 * beta))) * this
  · fin_cases s
    exacts [h0, h1]
  · exact hz'

theorem spinMu_exp {beta : ℝ} (hb : beta ≠ 0) (field : ℝ) :
    exp (spinMu false beta field 0 * beta) = I * exp (beta * field / 2) ∧ exp (spinMu false beta field 1 * beta) = I * exp (-(beta * field / 2)) := by
  have hb' : (beta : ℂ) ≠ 0 := by exact_mod_cast hb
  have e0 : spinMu false beta field 0 * beta = Real.pi / 2 * I + beta * field / 2 := by
    simp [spinMu, spinMu0, pyPauli]
    field_simp
  have e1 : spinMu false beta field 1 * beta = Real.pi / 2 * I + -(beta * field / 2) := by
    simp [spinMu, spinMu0, pyPauli]
    field_simp
  rw [e0, e1, Complex.exp_add, Complex.exp_add, Complex.exp_pi_div_two_mul_I]
  exact ⟨rfl, rfl⟩

/-- The partition function of a site with the chemical potentials of the code is `2 i cosh(β h / 2)`. -/
theorem fockZ_spin {beta : ℝ} (hb : beta ≠ 0) (field : ℝ) :
    fockZ (spinMu false beta field) beta = I * (exp (beta * field / 2) + exp (-(beta * field / 2))) ∧ fockZ (spinMu false beta field) beta ≠ 0 := by
  obtain ⟨h0, h1⟩ := spinMu_exp hb field
  have e : exp (beta * field / 2) * exp (-(beta * field / 2)) = 1 := by rw [← Complex.exp_add]; simp
  have h : fockZ (spinMu false beta field) beta = I * (exp (beta * field / 2) + exp (-(beta * field / 2))) := by
    rw [fockZ_eq, h0, h1]
    linear_combination I ^ 2 * e + Complex.I_sq
  refine ⟨h, ?_⟩
  rw [h]
  refine mul_ne_zero Complex.I_ne_zero ?_
  have : exp (beta * field / 2) + exp (-(beta * field / 2)) = ((Real.exp (beta * field / 2) + Real.exp (-(beta * field / 2)) : ℝ) : ℂ) := by
    push_cast
    rfl
  rw [this]
  exact_mod_cast (by positivity : (0 : ℝ) < _).ne'

/-- **C69**: the spin models start from the propagator of fermions on isolated sites, at all bins, with one site of one sublattice and its spin. -/
theorem C69_bare {n : ℕ} {beta : ℝ} (hb : beta ≠ 0) (N : ℕ) (delta external : Fin n → ℝ) (sp : Fin 2) (a : Fin n) (sp' : Fin 2) (b : Fin n) (r t : ℕ) :
    spinBareG false beta N delta external sp a sp' b r t =
      if sp = sp' ∧ a = b ∧ r = 0 then fockG (spinMu false beta (delta a + external a)) beta ((t + 1 / 2) * beta / N) sp else 0 := by
  rw [spinBareG]
  split_ifs with h
  · rw [C69_propagator _ _ _ _ (fockZ_spin hb _).2]
    congr 1
    rw [tauGrid]
    ring
  · rfl

/-- **C69**: averages over the states of the fermions are averages over the states of a spin: empty and doubly occupied states cancel. In particular a site
has one particle with certainty. -/
theorem C69_spin {beta : ℝ} (hb : beta ≠ 0) (field : ℝ) (x : Fin 2 → ℂ) (y : ℂ) :
    fockMean (spinMu false beta field) beta (fun n => if n = Occ.ofSpin 0 then x 0 else if n = Occ.ofSpin 1 then x 1 else y) = spinMean beta field x := by
  obtain ⟨h0, h1⟩ := spinMu_exp hb field
  obtain ⟨hz, hne⟩ := fockZ_spin hb field
  rw [hz] at hne
  have hne' := (mul_ne_zero_iff.1 hne).2
  have e : exp (beta * field / 2) * exp (-(beta * field / 2)) = 1 := by rw [← Complex.exp_add]; simp
  rw [fockMean, hz, spinMean, div_eq_div_iff hne hne', occ_sum]
  simp only [occ_exp]
  have c1 : (![false, false] : Occ) ≠ Occ.ofSpin 0 ∧ (![false, false] : Occ) ≠ Occ.ofSpin 1 ∧ (![false, true] : Occ) ≠ Occ.ofSpin 0 ∧
    (![false, true] : Occ) = Occ.ofSpin 1 ∧ (![true, false] : Occ) = Occ.ofSpin 0 ∧ (![true, true] : Occ) ≠ Occ.ofSpin 0 ∧ (![true, true] : Occ) ≠ Occ.ofSpin 1 := by decide
  obtain ⟨c1, c2, c3, c4, c5, c6, c7⟩ := c1
  simp only [if_neg c1, if_neg c2, if_neg c3, if_pos c4, if_pos c5, if_neg c6, if_neg c7]
  simp [h0, h1]
  linear_combination (I ^ 2 * y * (exp (beta * field / 2) + exp (-(beta * field / 2)))) * e + y * (exp (beta * field / 2) + exp (-(beta * field / 2))) * Complex.I_sq

/-- **C69** for many sites: with the chemical potential of the code, the trace over all fermion states of any observable of the spins, with the statistical operator of any
spin Hamiltonian, is the trace over the spin states, up to the same factor `i^m` for all of them. -/
theorem C69_popov {m : ℕ} {beta : ℝ} (hb : beta ≠ 0) (H O : SpinPoly m) :
    ∑ c : Fin m → Occ, (∏ i, exp (beta * spinMu0 false beta * (c i).count)) * (O.fock * NormedSpace.exp (-(beta : ℂ) • H.fock)) c c =
      I ^ m * (O.pure * NormedSpace.exp (-(beta : ℂ) • H.pure)).trace := by
  have hb' : (beta : ℂ) ≠ 0 := by exact_mod_cast hb
  have h := SpinLike.poly (algebraMap ℂ (SpinPoly m) (-(beta : ℂ)) * H)
  have e1 : (algebraMap ℂ (SpinPoly m) (-(beta : ℂ)) * H).fock = -(beta : ℂ) • H.fock := by
    simp [SpinPoly.fock, Algebra.smul_def]
  have e2 : (algebraMap ℂ (SpinPoly m) (-(beta : ℂ)) * H).pure = -(beta : ℂ) • H.pure := by
    simp [SpinPoly.pure, Algebra.smul_def]
  rw [e1, e2] at h
  rw [← ((SpinLike.poly O).mul h.exp).trace]
  refine Finset.sum_congr rfl fun c _ => ?_
  congr 1
  refine Finset.prod_congr rfl fun i _ => ?_
  rw [mul_comm, Complex.exp_nat_mul]
  congr 1
  rw [← Complex.exp_pi_div_two_mul_I]
  congr 1
  simp [spinMu0]
  field_simp

/-- The statement for a pair of spins with exchange and a field: the partition functions. -/
example (J h : ℂ) {beta : ℝ} (hb : beta ≠ 0) :
    let S := fun k i => FreeAlgebra.ι ℂ ((k, i) : Fin 3 × Fin 2)
    let H : SpinPoly 2 := J • (S 0 0 * S 0 1 + S 1 0 * S 1 1 + S 2 0 * S 2 1) - h • (S 2 0 + S 2 1)
    ∑ c : Fin 2 → Occ, (∏ i, exp (beta * spinMu0 false beta * (c i).count)) * NormedSpace.exp (-(beta : ℂ) • H.fock) c c =
      - (NormedSpace.exp (-(beta : ℂ) • H.pure)).trace := by
  intro S H
  have := C69_popov hb H 1
  simpa [SpinPoly.fock, SpinPoly.pure] using this

/-- **C69**: the propagator is the only function that obeys the equation of motion and jumps by one at time zero (so that it is antiperiodic). -/
theorem C69_equation {beta : ℝ} (hb : beta ≠ 0) (field : ℝ) (s : Fin 2) (g : ℝ → ℂ) :
    ((∀ tau, HasDerivAt g (spinMu false beta field s * g tau) tau) ∧ g 0 + g beta = 1) ↔ g = expKernel (spinMu false beta field s) beta := by
  have hz := (fockZ_spin hb field).2
  rw [fockZ_eq] at hz
  obtain ⟨h0, h1⟩ := mul_ne_zero_iff.1 hz
  have hs : 1 + exp (spinMu false beta field s * beta) ≠ 0 := by
    fin_cases s
    exacts [h0, h1]
  generalize spinMu false beta field s = mu at hs ⊢
  have hd : ∀ (x : ℂ) (tau : ℝ), HasDerivAt (fun t : ℝ => exp (x * t)) (x * exp (x * tau)) tau := by
    intro x tau
    have h := ((Complex.ofRealCLM.hasDerivAt (x := tau)).const_mul x).cexp
    simpa [mul_comm] using h
  constructor
  · rintro ⟨hg, hj⟩
    have hc : ∀ tau, g tau * exp (-mu * tau) = g 0 := by
      intro tau
      have hd' : ∀ t, HasDerivAt (fun t : ℝ => g t * exp (-mu * t)) 0 t := by
        intro t
        exact ((hg t).mul (hd (-mu) t)).congr_deriv (by ring)
      have := is_const_of_deriv_eq_zero (fun t => (hd' t).differentiableAt) (fun t => (hd' t).deriv) tau 0
      simpa using this
    have hg' : ∀ tau, g tau = g 0 * exp (mu * tau) := by
      intro tau
      rw [← hc tau, mul_assoc, ← Complex.exp_add]
      simp
    funext tau
    rw [hg' beta] at hj
    rw [hg' tau, expKernel, eq_div_iff hs]
    linear_combination exp (mu * tau) * hj
  · rintro rfl
    refine ⟨fun tau => ?_, ?_⟩
    · exact ((hd mu tau).div_const (1 + exp (mu * beta))).congr_deriv (by rw [expKernel, mul_div_assoc])
    · simp only [expKernel]
      rw [← add_div]
      simp [hs]

theorem lastBins_lim {beta : ℝ} {g : ℝ → ℂ} (hg : ContinuousAt g beta) :
    Filter.Tendsto (fun N => lastBins N fun t => g (tauGrid beta N t)) Filter.atTop (nhds (g beta)) := by
  have hl : ∀ k : ℕ, Filter.Tendsto (fun N : ℕ => tauGrid beta N (N - k)) Filter.atTop (nhds beta) := by
    intro k
    have h1 : Filter.Tendsto (fun N : ℕ => beta - (k - 0.5) * (beta / N)) Filter.atTop (nhds (beta - (k - 0.5) * 0)) :=
      tendsto_const_nhds.sub (tendsto_const_nhds.mul (tendsto_const_div_atTop_nhds_zero_nat beta))
    rw [mul_zero, sub_zero] at h1
    refine h1.congr' ?_
    filter_upwards [Filter.eventually_ge_atTop (k + 1)] with N hN
    have hN' : (N : ℝ) ≠ 0 := by
      have : N ≠ 0 := by omega
      exact_mod_cast this
    rw [tauGrid, Nat.cast_sub (by omega)]
    field_simp
    ring
  have h1 := (hg.tendsto.comp (hl 1)).const_mul (1.5 : ℂ)
  have h2 := (hg.tendsto.comp (hl 2)).const_mul (0.5 : ℂ)
  have := h1.sub h2
  have e : (1.5 : ℂ) * g beta - 0.5 * g beta = g beta := by
    norm_num
    ring
  rw [e] at this
  exact this

/-- **C69**: the spin reported for the bare propagator tends to half the hyperbolic tangent, the spin of an isolated site, as the bins are refined, and the number of
particles to `1 + i / cosh`. -/
theorem C69_measured {n : ℕ} {beta : ℝ} (hb : beta ≠ 0) (delta external : Fin n → ℝ) (a : Fin n) :
    let h := delta a + external a
    Filter.Tendsto (fun N => measureSz N fun s => spinBareG false beta N delta external s a s a 0) Filter.atTop (nhds (spinMean beta h ![1 / 2, -1 / 2])) ∧
      spinMean beta h ![1 / 2, -1 / 2] = ((Real.tanh (beta * h / 2) / 2 : ℝ) : ℂ) ∧
      Filter.Tendsto (fun N => measureN N fun s => spinBareG false beta N delta external s a s a 0) Filter.atTop (nhds (1 + I / Real.cosh (beta * h / 2))) := by
  intro h
  have hc : ∀ s, Continuous (expKernel (spinMu false beta h s) beta) := by
    intro s
    unfold expKernel
    fun_prop
  have l := fun s => lastBins_lim (beta := beta) (g := expKernel (spinMu false beta h s) beta) (hc s).continuousAt
  have e : ∀ s N, (fun t => expKernel (spinMu false beta h s) beta (tauGrid beta N t)) = spinBareG false beta N delta external s a s a 0 := by
    intro s N
    funext t
    simp [spinBareG, h]
  simp only [e] at l
  obtain ⟨h0, h1⟩ := spinMu_exp hb h
  obtain ⟨hz, hne⟩ := fockZ_spin hb h
  have hz' := hne
  rw [fockZ_eq] at hz'
  obtain ⟨n0, n1⟩ := mul_ne_zero_iff.1 hz'
  have k0 : expKernel (spinMu false beta h 0) beta beta = _ / _ := rfl
  have k1 : expKernel (spinMu false beta h 1) beta beta = _ / _ := rfl
  rw [hz] at hne
  have hne' := (mul_ne_zero_iff.1 hne).2
  rw [h0] at k0 n0
  rw [h1] at k1 n1
  have ef : exp (beta * h / 2) * exp (-(beta * h / 2)) = 1 := by rw [← Complex.exp_add]; simp
  have ht : Complex.tanh (beta * h / 2) = (exp (beta * h / 2) - exp (-(beta * h / 2))) / (exp (beta * h / 2) + exp (-(beta * h / 2))) := by
    rw [Complex.tanh_eq_sinh_div_cosh, Complex.sinh, Complex.cosh]
    field_simp
  have hcosh : Complex.cosh (beta * h / 2) = (exp (beta * h / 2) + exp (-(beta * h / 2))) / 2 := rfl
  have m0 : spinMean beta h ![1 / 2, -1 / 2] = -0.5 * (expKernel (spinMu false beta h 1) beta beta - expKernel (spinMu false beta h 0) beta beta) := by
    rw [k0, k1, spinMean]
    simp only [Matrix.cons_val_zero, Matrix.cons_val_one]
    generalize exp (beta * h / 2) = E at *
    generalize exp (-(beta * h / 2)) = F at *
    rw [div_sub_div _ _ n1 n0, ← mul_div_assoc, div_eq_div_iff hne' (mul_ne_zero n1 n0)]
    norm_num
    linear_combination (1 / 2 * (E - F) * I ^ 2) * ef + 1 / 2 * (E - F) * Complex.I_sq
  refine ⟨?_, ?_, ?_⟩
  · rw [m0]
    exact ((l 1).sub (l 0)).const_mul _
  · push_cast
    rw [ht, spinMean]
    simp only [Matrix.cons_val_zero, Matrix.cons_val_one]
    field_simp
    ring
  · have : 1 + I / Real.cosh (beta * h / 2) = expKernel (spinMu false beta h 1) beta beta + expKernel (spinMu false beta h 0) beta beta := by
      rw [k0, k1]
      push_cast
      rw [hcosh]
      generalize exp (beta * h / 2) = E at *
      generalize exp (-(beta * h / 2)) = F at *
      have e2 : 1 + I / ((E + F) / 2) = (E + F + 2 * I) / (E + F) := by
        field_simp
      rw [e2, div_add_div _ _ n1 n0, div_eq_div_iff hne' (mul_ne_zero n1 n0)]
      linear_combination (-2 * I ^ 2 * (E + F) + (E + F + 2 * I) * I ^ 2) * ef + (E + F + 2 * I) * Complex.I_sq
    rw [this]
    exact (l 1).add (l 0)

/-- Without field, each spin is equally probable and its average vanishes. -/
example : spinMean 1 0 ![1 / 2, -1 / 2] = 0 ∧ spinMean 1 0 ![1, 1] = 1 := by
  simp [spinMean]
  norm_num

/-- **C69 fails** with the option `"ImW"`: the chemical potential is real, and empty and doubly occupied sites do not cancel. The probability of one particle is not one. -/
theorem C69_refuted_imw {beta : ℝ} (hb : beta ≠ 0) : fockMean (spinMu true beta 0) beta (fun n => if n.single then 1 else 0) ≠ 1 := by
  have hb' : (beta : ℂ) ≠ 0 := by exact_mod_cast hb
  have e : ∀ s, exp (spinMu true beta 0 s * beta) = ((Real.exp (Real.pi / 4) : ℝ) : ℂ) := by
    intro s
    push_cast
    congr 1
    simp [spinMu, spinMu0]
    field_simp
  have hp := Real.exp_pos (Real.pi / 4)
  rw [fockMean, fockZ_eq, occ_sum]
  simp only [occ_exp, e]
  have c : Occ.single ![false, false] = false ∧ Occ.single ![false, true] = true ∧ Occ.single ![true, false] = true ∧ Occ.single ![true, true] = false := by decide
  rw [c.1, c.2.1, c.2.2.1, c.2.2.2]
  generalize Real.exp (Real.pi / 4) = x at *
  intro h
  have hz : (1 + (x : ℂ)) * (1 + x) ≠ 0 := by
    have : (1 + x) * (1 + x) ≠ 0 := by positivity
    exact_mod_cast this
  rw [div_eq_one_iff_eq hz] at h
  simp at h
  have h' : x + x = (1 + x) * (1 + x) := by exact_mod_cast h
  nlinarith

end Feyn
