import Verif.Spec.Bands
import Verif.Props.SelfCons
import Verif.Proof.BondsLat
import Mathlib.Analysis.Matrix.Spectrum
import Mathlib.LinearAlgebra.Eigenspace.Triangularizable
import Mathlib.Analysis.Real.Pi.Bounds
import Mathlib.Analysis.Complex.Polynomial.Basic

/-!
# The bare propagator of the band models (C80)
-/

set_option linter.unusedSectionVars false
set_option linter.unnecessarySeqFocus false

namespace Feyn

open Matrix

/-- The propagator of a level of energy `w`. -/
noncomputable def fermi (w t beta : ℝ) : ℝ := Real.exp (-(w * t)) / (1 + Real.exp (-(beta * w)))

theorem fermi_pos (w t beta : ℝ) : 0 < fermi w t beta := by unfold fermi; positivity

theorem fermi_le {w t beta : ℝ} (h0 : 0 ≤ t) (h1 : t ≤ beta) : fermi w t beta ≤ 1 := by
  have hp : 0 < 1 + Real.exp (-(beta * w)) := by positivity
  unfold fermi
  rw [div_le_one hp]
  rcases le_total 0 w with hw | hw
  · have : Real.exp (-(w * t)) ≤ 1 := Real.exp_le_one_iff.2 (by nlinarith)
    linarith [Real.exp_pos (-(beta * w))]
  · have : Real.exp (-(w * t)) ≤ Real.exp (-(beta * w)) := Real.exp_le_exp.2 (by nlinarith)
    linarith

/-- C80, one level: the kernel is the propagator of a level up to a relative error of `exp(-200)`, and exactly for levels up to `200/beta`. -/
theorem C80_kernel {w t beta : ℝ} (hb : 0 < beta) :
    ‖fermiKernel w t beta - (Real.exp (-(w * t)) / (1 + Real.exp (-(beta * w))) : ℝ)‖ ≤ Real.exp (-200) * (Real.exp (-(w * t)) / (1 + Real.exp (-(beta * w)))) ∧
      (|beta * w| ≤ 200 → fermiKernel w t beta = (Real.exp (-(w * t)) / (1 + Real.exp (-(beta * w))) : ℝ)) := by
  have hb' : beta ≠ 0 := hb.ne'
  have hx : (beta : ℂ) * w / 2 = ((beta * w / 2 : ℝ) : ℂ) := by push_cast; ring
  have g1 : npGreater ((beta * w / 2 : ℝ) : ℂ) 100 ↔ 200 < beta * w := by
    have : (100 : ℂ).re = 100 ∧ (100 : ℂ).im = 0 := by constructor <;> norm_num
    simp only [npGreater, this.1, this.2, Complex.ofReal_re, Complex.ofReal_im, lt_irrefl, and_false, or_false]
    constructor <;> intro h <;> linarith
  have g2 : npGreater (-100) ((beta * w / 2 : ℝ) : ℂ) ↔ beta * w < -200 := by
    have : (-100 : ℂ).re = -100 ∧ (-100 : ℂ).im = 0 := by constructor <;> norm_num
    simp only [npGreater, this.1, this.2, Complex.ofReal_re, Complex.ofReal_im, lt_irrefl, and_false, or_false]
    constructor <;> intro h <;> linarith
  have hp : 0 < 1 + Real.exp (-(beta * w)) := by positivity
  simp only [fermiKernel, hx, g1, g2]
  by_cases h1 : 200 < beta * w
  · rw [if_pos h1]
    have e : -((beta * w / 2 : ℝ) : ℂ) * (((2 * t / beta - 1 : ℝ) : ℂ) + 1) = ((-(w * t) : ℝ) : ℂ) := by
      rw [← Complex.ofReal_one, ← Complex.ofReal_add, ← Complex.ofReal_neg, ← Complex.ofReal_mul]
      congr 1
      field_simp
      ring
    refine ⟨?_, fun h => absurd (le_abs_self (beta * w)) (by linarith)⟩
    rw [e, ← Complex.ofReal_exp, ← Complex.ofReal_sub, Complex.norm_real, Real.norm_eq_abs]
    have e2 : Real.exp (-(w * t)) - Real.exp (-(w * t)) / (1 + Real.exp (-(beta * w))) = Real.exp (-(beta * w)) * (Real.exp (-(w * t)) / (1 + Real.exp (-(beta * w)))) := by
      field_simp
      ring
    rw [e2, abs_of_pos (by positivity)]
    exact mul_le_mul_of_nonneg_right (Real.exp_le_exp.2 (by linarith)) (by positivity)
  rw [if_neg h1]
  by_cases h2 : beta * w < -200
  · rw [if_pos h2]
    have e : ((beta * w / 2 : ℝ) : ℂ) * (1 - ((2 * t / beta - 1 : ℝ) : ℂ)) = ((beta * w + -(w * t) : ℝ) : ℂ) := by
      rw [← Complex.ofReal_one, ← Complex.ofReal_sub, ← Complex.ofReal_mul]
      congr 1
      field_simp
      ring
    refine ⟨?_, fun h => absurd (neg_le_abs (beta * w)) (by linarith)⟩
    rw [e, ← Complex.ofReal_exp, ← Complex.ofReal_sub, Complex.norm_real, Real.norm_eq_abs]
    have e3 : Real.exp (beta * w) * Real.exp (-(beta * w)) = 1 := by rw [← Real.exp_add]; simp
    have e2 : Real.exp (beta * w + -(w * t)) - Real.exp (-(w * t)) / (1 + Real.exp (-(beta * w))) = Real.exp (beta * w) * (Real.exp (-(w * t)) / (1 + Real.exp (-(beta * w)))) := by
      rw [Real.exp_add]
      field_simp
      linear_combination e3
    rw [e2, abs_of_pos (by positivity)]
    exact mul_le_mul_of_nonneg_right (Real.exp_le_exp.2 (by linarith)) (by positivity)
  rw [if_neg h2]
  have e : Complex.exp (-((beta * w / 2 : ℝ) : ℂ) * ((2 * t / beta - 1 : ℝ) : ℂ)) / (2 * Complex.cosh ((beta * w / 2 : ℝ) : ℂ)) =
      (Real.exp (-(w * t)) / (1 + Real.exp (-(beta * w))) : ℝ) := by
    rw [← Complex.ofReal_neg, ← Complex.ofReal_mul, ← Complex.ofReal_exp, ← Complex.ofReal_cosh, show (2 : ℂ) = ((2 : ℝ) : ℂ) by norm_num, ← Complex.ofReal_mul, ← Complex.ofReal_div]
    congr 1
    have hc : 0 < 2 * Real.cosh (beta * w / 2) := by positivity
    rw [div_eq_div_iff hc.ne' hp.ne', Real.cosh_eq]
    have a1 : -(beta * w / 2) * (2 * t / beta - 1) = -(w * t) + beta * w / 2 := by field_simp; ring
    have a2 : -(beta * w) = -(beta * w / 2) + -(beta * w / 2) := by ring
    rw [a1, a2, Real.exp_add, Real.exp_add]
    have a3 : Real.exp (beta * w / 2) * Real.exp (-(beta * w / 2)) = 1 := by rw [← Real.exp_add]; simp
    linear_combination Real.exp (-(w * t)) * Real.exp (-(beta * w / 2)) * a3
  rw [e]
  refine ⟨?_, fun _ => rfl⟩
  rw [sub_self, norm_zero]
  positivity

section
variable {S : Type} [Fintype S] [DecidableEq S]

/-- One level. -/
theorem level_eq {e beta : ℝ} {c : ℂ} {y : ℝ → ℂ} (hy : ∀ t, HasDerivAt y (-(e * y t)) t) (hj : y 0 + y beta = c) (t : ℝ) : y t = fermi e t beta * c := by
  have hd : ∀ (x : ℂ) (tau : ℝ), HasDerivAt (fun t : ℝ => Complex.exp (x * t)) (x * Complex.exp (x * tau)) tau := by
    intro x tau
    have h := ((Complex.ofRealCLM.hasDerivAt (x := tau)).const_mul x).cexp
    simpa [mul_comm] using h
  have hc : ∀ tau : ℝ, y tau * Complex.exp (e * tau) = y 0 := by
    intro tau
    have hd' : ∀ t, HasDerivAt (fun t : ℝ => y t * Complex.exp (e * t)) 0 t := by
      intro t
      exact ((hy t).mul (hd e t)).congr_deriv (by ring)
    have := is_const_of_deriv_eq_zero (fun t => (hd' t).differentiableAt) (fun t => (hd' t).deriv) tau 0
    simpa using this
  have hg' : ∀ tau : ℝ, y tau = y 0 * Complex.exp (-(e * tau)) := by
    intro tau
    rw [← hc tau, mul_assoc, ← Complex.exp_add]
    simp
  have hp : (1 + Complex.exp (-(beta * e))) ≠ 0 := by
    have : (1 + Complex.exp (-(beta * e))) = ((1 + Real.exp (-(beta * e)) : ℝ) : ℂ) := by push_cast; rfl
    rw [this]
    exact_mod_cast (by positivity : (1 + Real.exp (-(beta * e))) ≠ 0)
  rw [hg' beta] at hj
  rw [hg' t, fermi]
  push_cast
  rw [mul_comm (beta : ℂ) e] at hp ⊢
  rw [← hj]
  field_simp

theorem fermi_deriv (e beta t : ℝ) : HasDerivAt (fun t => ((fermi e t beta : ℝ) : ℂ)) (-(e * (fermi e t beta : ℝ))) t := by
  have h : HasDerivAt (fun t => fermi e t beta) (-(e * fermi e t beta)) t := by
    unfold fermi
    have h1 := ((((hasDerivAt_id t).const_mul e).neg).exp).div_const (1 + Real.exp (-(beta * e)))
    exact h1.congr_deriv (by simp; ring)
  have := h.ofReal_comp
  simpa using this

theorem fermi_jump (e beta : ℝ) : fermi e 0 beta + fermi e beta beta = 1 := by
  have hp : 0 < 1 + Real.exp (-(beta * e)) := by positivity
  unfold fermi
  rw [← add_div, div_eq_one_iff_eq hp.ne', mul_comm e beta]
  simp

/-- Propagator of one momentum. -/
noncomputable def levels (U : Matrix S S ℂ) (e : S → ℝ) (beta t : ℝ) : Matrix S S ℂ := U * diagonal (fun i => ((fermi (e i) t beta : ℝ) : ℂ)) * Uᴴ

theorem levels_apply (U : Matrix S S ℂ) (e : S → ℝ) (beta t : ℝ) (p q : S) : levels U e beta t p q = ∑ i, U p i * (fermi (e i) t beta : ℝ) * star (U q i) := by
  simp [levels, Matrix.mul_apply, Matrix.diagonal_apply]

theorem momentum_iff {H U : Matrix S S ℂ} {e : S → ℝ} {beta : ℝ} (hU : U ∈ unitaryGroup S ℂ) (hH : H * U = U * diagonal (fun i => (e i : ℂ))) (X : ℝ → Matrix S S ℂ) :
    ((∀ t p q, HasDerivAt (fun t => X t p q) (-(H * X t) p q) t) ∧ X 0 + X beta = 1) ↔ X = levels U e beta := by
  have u1 : Uᴴ * U = 1 := mem_unitaryGroup_iff'.1 hU
  have u2 : U * Uᴴ = 1 := mem_unitaryGroup_iff.1 hU
  have hD : Uᴴ * H = diagonal (fun i => (e i : ℂ)) * Uᴴ := by
    calc Uᴴ * H = Uᴴ * (H * U) * Uᴴ := by rw [Matrix.mul_assoc, Matrix.mul_assoc, u2, Matrix.mul_one]
      _ = Uᴴ * U * diagonal (fun i => (e i : ℂ)) * Uᴴ := by rw [hH, Matrix.mul_assoc, Matrix.mul_assoc, Matrix.mul_assoc, Matrix.mul_assoc]
      _ = _ := by rw [u1, Matrix.one_mul]
  constructor
  · rintro ⟨h1, h2⟩
    have hy : ∀ i q t, HasDerivAt (fun t => (Uᴴ * X t) i q) (-(e i * (Uᴴ * X t) i q)) t := by
      intro i q t
      have h3 : HasDerivAt (fun t => ∑ p, Uᴴ i p * X t p q) (∑ p, Uᴴ i p * -(H * X t) p q) t :=
        HasDerivAt.fun_sum fun p _ => (h1 t p q).const_mul (Uᴴ i p)
      have e1 : ∑ p, Uᴴ i p * -(H * X t) p q = -(e i * (Uᴴ * X t) i q) := by
        have : (Uᴴ * (H * X t)) i q = e i * (Uᴴ * X t) i q := by
          rw [← Matrix.mul_assoc, hD, Matrix.mul_assoc, Matrix.diagonal_mul]
        rw [← this, Matrix.mul_apply, ← Finset.sum_neg_distrib]
        exact Finset.sum_congr rfl fun p _ => by ring
      rw [e1] at h3
      simpa only [Matrix.mul_apply] using h3
    have hj : ∀ i q, (Uᴴ * X 0) i q + (Uᴴ * X beta) i q = Uᴴ i q := by
      intro i q
      rw [← Matrix.add_apply, ← Matrix.mul_add, h2, Matrix.mul_one]
    funext t
    have hl : Uᴴ * X t = diagonal (fun i => ((fermi (e i) t beta : ℝ) : ℂ)) * Uᴴ := by
      ext i q
      rw [level_eq (hy i q) (hj i q) t, Matrix.diagonal_mul]
    rw [levels, Matrix.mul_assoc, ← hl, ← Matrix.mul_assoc, u2, Matrix.one_mul]
  · rintro rfl
    constructor
    · intro t p q
      have h3 : HasDerivAt (fun t => ∑ i, U p i * ((fermi (e i) t beta : ℝ) : ℂ) * star (U q i)) (∑ i, U p i * (-(e i * (fermi (e i) t beta : ℝ))) * star (U q i)) t :=
        HasDerivAt.fun_sum fun i _ => ((fermi_deriv (e i) beta t).const_mul (U p i)).mul_const _
      have e1 : ∑ i, U p i * (-(e i * ((fermi (e i) t beta : ℝ) : ℂ))) * star (U q i) = -(H * levels U e beta t) p q := by
        rw [levels, Matrix.mul_assoc, ← Matrix.mul_assoc, hH, Matrix.mul_assoc, ← Matrix.mul_assoc, Matrix.mul_assoc, ← Matrix.mul_assoc (diagonal _) (diagonal _), Matrix.diagonal_mul_diagonal,
          Matrix.mul_apply, ← Finset.sum_neg_distrib]
        refine Finset.sum_congr rfl fun i _ => ?_
        rw [Matrix.diagonal_mul, Matrix.conjTranspose_apply]
        ring
      rw [e1] at h3
      simpa only [levels_apply] using h3
    · rw [levels, levels, ← Matrix.add_mul, ← Matrix.mul_add, Matrix.diagonal_add]
      have : (fun i => ((fermi (e i) 0 beta : ℝ) : ℂ) + ((fermi (e i) beta beta : ℝ) : ℂ)) = fun _ => 1 := by
        funext i
        rw [← Complex.ofReal_add, fermi_jump, Complex.ofReal_one]
      rw [this, Matrix.diagonal_one, Matrix.mul_one, u2]


variable {d : ℕ} {L : Fin d → ℕ} [∀ i, NeZero (L i)]

theorem ph_neg_mul {F : Type} [Field F] (E : Phase F) (x : ℚ) : E.ph (-x) * E.ph x = 1 := by
  rw [← E.add]
  simp [(E.one_iff 0).2 ⟨0, by simp⟩]

theorem ph_angle_neg (E : Phase ℂ) (r k : ∀ i, Fin (L i)) : E.ph (angle (-r) k) = E.ph (-angle r k) := by
  have h1 := ph_angle_add E (-r) r k
  have h0 : E.ph (angle (-r + r) k) = 1 := by
    have : (-r + r : ∀ i, Fin (L i)) = 0 := neg_add_cancel r
    rw [this]
    simp [angle, (E.one_iff 0).2 ⟨0, by simp⟩]
  rw [h0] at h1
  have h2 := ph_neg_mul E (angle r k)
  have h3 : E.ph (angle r k) ≠ 0 := fun h => by rw [h, mul_zero] at h2; exact zero_ne_one h2
  exact mul_right_cancel₀ h3 (h1.symm.trans h2.symm)

theorem star_ph (x : ℚ) : star (Phase.complex.ph x) = Phase.complex.ph (-x) := by
  simp only [Phase.complex, Complex.star_def, ← Complex.exp_conj]
  congr 1
  simp

theorem fftn_hermitian {h : (∀ i, Fin (L i)) → Matrix S S ℂ} (hh : HermitianHopping h) (k : ∀ i, Fin (L i)) :
    (fftn Phase.complex (fun r (_ : Fin 1) => h r) k 0).IsHermitian := by
  ext p q
  rw [Matrix.conjTranspose_apply]
  simp only [fftn, Matrix.sum_apply, Matrix.smul_apply, star_sum, smul_eq_mul]
  rw [← Equiv.sum_comp (Equiv.neg _)]
  refine Finset.sum_congr rfl fun r _ => ?_
  rw [Equiv.neg_apply, StarMul.star_mul, ph_angle_neg, star_ph, neg_neg, hh r p q, star_star, mul_comm]

theorem fftn_convolve (E : Phase ℂ) (h f : (∀ i, Fin (L i)) → Matrix S S ℂ) (k : ∀ i, Fin (L i)) :
    fftn E (fun r (_ : Fin 1) => ∑ r', h (r - r') * f r') k 0 = fftn E (fun r (_ : Fin 1) => h r) k 0 * fftn E (fun r (_ : Fin 1) => f r) k 0 := by
  simp only [fftn, Finset.smul_sum]
  rw [Finset.sum_comm, Finset.mul_sum]
  refine Finset.sum_congr rfl fun r' _ => ?_
  rw [← Equiv.sum_comp (Equiv.addRight r'), Finset.sum_mul]
  refine Finset.sum_congr rfl fun r _ => ?_
  rw [Equiv.coe_addRight, add_sub_cancel_right, ph_angle_add, Matrix.smul_mul, Matrix.mul_smul, smul_smul]

theorem fftn_origin (E : Phase ℂ) (k : ∀ i, Fin (L i)) :
    fftn E (fun r (_ : Fin 1) => if ∀ i, (r i : ℕ) = 0 then (1 : Matrix S S ℂ) else 0) k 0 = 1 := by
  have h0 : ∀ r : ∀ i, Fin (L i), (∀ i, (r i : ℕ) = 0) ↔ r = 0 := by
    intro r
    rw [funext_iff]
    exact forall_congr' fun i => by rw [Fin.ext_iff]; rfl
  simp only [fftn, h0, smul_ite, smul_zero, Finset.sum_ite_eq', Finset.mem_univ, if_true]
  simp [angle, (E.one_iff 0).2 ⟨0, by simp⟩]

theorem free_iff (E : Phase ℂ) (h : (∀ i, Fin (L i)) → Matrix S S ℂ) (beta : ℝ) (g : ℝ → (∀ i, Fin (L i)) → Matrix S S ℂ) :
    FreeParticles h beta g ↔ ∀ k, (∀ t p q, HasDerivAt (fun t => fftn E (fun r (_ : Fin 1) => g t r) k 0 p q)
      (-(fftn E (fun r (_ : Fin 1) => h r) k 0 * fftn E (fun r (_ : Fin 1) => g t r) k 0) p q) t) ∧
      fftn E (fun r (_ : Fin 1) => g 0 r) k 0 + fftn E (fun r (_ : Fin 1) => g beta r) k 0 = 1 := by
  have hL : ∀ i, 0 < L i := fun i => Nat.pos_of_ne_zero (NeZero.ne (L i))
  have hent : ∀ (f : (∀ i, Fin (L i)) → Matrix S S ℂ) k p q, fftn E (fun r (_ : Fin 1) => f r) k 0 p q = ∑ r, E.ph (angle r k) * f r p q := by
    intro f k p q
    simp [fftn, Matrix.sum_apply]
  have hinv : ∀ (f : (∀ i, Fin (L i)) → Matrix S S ℂ) r p q, f r p q = (∏ i, (L i : ℂ))⁻¹ * ∑ k, E.ph (-angle r k) * fftn E (fun r (_ : Fin 1) => f r) k 0 p q := by
    intro f r p q
    have := congrFun (congrFun (ifftn_fftn E hL (fun r (_ : Fin 1) => f r)) r) 0
    have := congrFun (congrFun this p) q
    rw [← this]
    simp [ifftn, Matrix.sum_apply, Matrix.smul_apply]
  constructor
  · rintro ⟨h1, h2⟩ k
    constructor
    · intro t p q
      have h3 : HasDerivAt (fun t => ∑ r, E.ph (angle r k) * g t r p q) (∑ r, E.ph (angle r k) * -(∑ r', h (r - r') * g t r') p q) t :=
        HasDerivAt.fun_sum fun r _ => (h1 t r p q).const_mul _
      rw [← fftn_convolve]
      simp only [hent]
      refine h3.congr_deriv ?_
      rw [← Finset.sum_neg_distrib]
      exact Finset.sum_congr rfl fun r _ => by ring
    · rw [← fftn_origin (S := S) E k]
      simp only [fftn, ← h2, smul_add, Finset.sum_add_distrib]
  · intro h3
    constructor
    · intro t r p q
      have h4 : HasDerivAt (fun t => (∏ i, (L i : ℂ))⁻¹ * ∑ k, E.ph (-angle r k) * fftn E (fun r (_ : Fin 1) => g t r) k 0 p q)
          ((∏ i, (L i : ℂ))⁻¹ * ∑ k, E.ph (-angle r k) * -(fftn E (fun r (_ : Fin 1) => h r) k 0 * fftn E (fun r (_ : Fin 1) => g t r) k 0) p q) t :=
        (HasDerivAt.fun_sum fun k _ => ((h3 k).1 t p q).const_mul _).const_mul _
      have e : (∏ i, (L i : ℂ))⁻¹ * ∑ k, E.ph (-angle r k) * -(fftn E (fun r (_ : Fin 1) => h r) k 0 * fftn E (fun r (_ : Fin 1) => g t r) k 0) p q =
          -(∑ r', h (r - r') * g t r') p q := by
        rw [hinv (fun r => ∑ r', h (r - r') * g t r') r p q]
        simp only [fftn_convolve, mul_neg, Finset.sum_neg_distrib]
      rw [e] at h4
      exact h4.congr_of_eventuallyEq (Filter.Eventually.of_forall fun t => hinv (g t) r p q)
    · intro r
      ext p q
      have e2 : (fun r (_ : Fin 1) => g 0 r + g beta r) = fun r (_ : Fin 1) => if ∀ i, (r i : ℕ) = 0 then (1 : Matrix S S ℂ) else 0 := by
        rw [← ifftn_fftn E hL (fun r (_ : Fin 1) => g 0 r + g beta r), ← ifftn_fftn E hL (fun r (_ : Fin 1) => if ∀ i, (r i : ℕ) = 0 then (1 : Matrix S S ℂ) else 0)]
        congr 1
        funext k x
        rw [Subsingleton.elim x 0, fftn_origin, ← (h3 k).2]
        simp only [fftn, smul_add, Finset.sum_add_distrib]
      exact congrFun (congrFun (congrFun (congrFun e2 r) 0) p) q

theorem real_levels {H U : Matrix S S ℂ} {e : S → ℂ} (hH : H.IsHermitian) (hU : U ∈ unitaryGroup S ℂ) (h : H * U = U * diagonal e) (i : S) : e i = ((e i).re : ℂ) := by
  have u1 : Uᴴ * U = 1 := mem_unitaryGroup_iff'.1 hU
  have hd : diagonal e = Uᴴ * H * U := by rw [Matrix.mul_assoc, h, ← Matrix.mul_assoc, u1, Matrix.one_mul]
  have hs : (diagonal e)ᴴ = diagonal e := by
    rw [hd, Matrix.conjTranspose_mul, Matrix.conjTranspose_mul, Matrix.conjTranspose_conjTranspose, hH.eq, Matrix.mul_assoc]
  have := congrFun (congrFun hs i) i
  simp [Matrix.conjTranspose_apply] at this
  exact (Complex.conj_eq_iff_re.1 this).symm

theorem row_norm {U : Matrix S S ℂ} (hU : U ∈ unitaryGroup S ℂ) (p : S) : ∑ i, ‖U p i‖ ^ 2 = 1 := by
  have u2 : U * Uᴴ = 1 := mem_unitaryGroup_iff.1 hU
  have h := congrFun (congrFun u2 p) p
  rw [Matrix.mul_apply, Matrix.one_apply_eq] at h
  have e : ∀ i, U p i * Uᴴ i p = ((‖U p i‖ ^ 2 : ℝ) : ℂ) := by
    intro i
    rw [Matrix.conjTranspose_apply, Complex.star_def, Complex.mul_conj, Complex.normSq_eq_norm_sq]
  simp only [e] at h
  exact_mod_cast h

theorem row_mul_le {U : Matrix S S ℂ} (hU : U ∈ unitaryGroup S ℂ) (p q : S) : ∑ i, ‖U p i‖ * ‖U q i‖ ≤ 1 := by
  have h1 := row_norm hU p
  have h2 := row_norm hU q
  have h3 : ∑ i, ‖U p i‖ * ‖U q i‖ ≤ ∑ i, (‖U p i‖ ^ 2 + ‖U q i‖ ^ 2) / 2 :=
    Finset.sum_le_sum fun i _ => by nlinarith [sq_nonneg (‖U p i‖ - ‖U q i‖)]
  rw [← Finset.sum_div, Finset.sum_add_distrib, h1, h2] at h3
  linarith

theorem mean_le {f : (∀ i, Fin (L i)) → ℂ} {c : ℝ} (hf : ∀ k, ‖f k‖ ≤ c) (r : ∀ i, Fin (L i)) :
    ‖(∏ i, (L i : ℂ))⁻¹ * ∑ k, Phase.complex.ph (-angle r k) * f k‖ ≤ c := by
  have hp : 0 < ∏ i, (L i : ℝ) := Finset.prod_pos fun i _ => by exact_mod_cast Nat.pos_of_ne_zero (NeZero.ne (L i))
  have h1 : ‖∑ k, Phase.complex.ph (-angle r k) * f k‖ ≤ (∏ i, (L i : ℝ)) * c := by
    refine (norm_sum_le _ _).trans ?_
    have : ∑ _k : (∀ i, Fin (L i)), c = (∏ i, (L i : ℝ)) * c := by
      rw [Finset.sum_const, nsmul_eq_mul, Finset.card_univ, Fintype.card_pi]
      simp
    rw [← this]
    exact Finset.sum_le_sum fun k _ => by rw [norm_mul, phase_norm, one_mul]; exact hf k
  rw [norm_mul, norm_inv]
  have e : ‖∏ i, (L i : ℂ)‖ = ∏ i, (L i : ℝ) := by rw [norm_prod]; simp
  rw [e, inv_mul_le_iff₀ hp]
  exact h1

theorem tauGrid_mem {beta : ℝ} (hb : 0 < beta) {N : ℕ} (n : Fin N) : 0 ≤ tauGrid beta N n ∧ tauGrid beta N n ≤ beta := by
  have hN : (0 : ℝ) < N := by exact_mod_cast n.pos
  have hn : ((n : ℕ) : ℝ) + 1 ≤ N := by exact_mod_cast n.isLt
  unfold tauGrid
  constructor
  · positivity
  · rw [← mul_div_assoc, div_le_iff₀ hN, mul_comm]
    exact mul_le_mul_of_nonneg_left (by norm_num; linarith) hb.le

/-- C80, any lattice: for a Hermitian Hamiltonian whose eigenvectors are orthonormal, `BareG` transformed back to real space and time holds, at the centres of the time bins, the
propagator of free particles up to `exp(-200)`, and exactly if `beta` times the energies is at most 200. There is only one such propagator. -/
theorem C80_bands (κ : Kind) {beta : ℝ} (hb : 0 < beta) (N : ℕ) {eig : Eig S} {h : (∀ i, Fin (L i)) → Matrix S S ℂ} (hh : HermitianHopping h)
    (heig : ∀ k, let H := fftn Phase.complex (fun r (_ : Fin 1) => h r) k 0; H * (eig H).2 = (eig H).2 * diagonal (eig H).1 ∧ (eig H).2 ∈ unitaryGroup S ℂ) :
    ∃ g, FreeParticles h beta g ∧ (∀ g', FreeParticles h beta g' → g' = g) ∧
      (∀ r n p q, ‖((bandG eig beta N (fftn Phase.complex fun r _ => h r)).fft κ Phase.complex [.R, .T]).data r n p q - g (tauGrid beta N n) r p q‖ ≤ Real.exp (-200)) ∧
      ((∀ k i, ‖beta * (eig (fftn Phase.complex (fun r (_ : Fin 1) => h r) k 0)).1 i‖ ≤ 200) →
        ∀ r n, ((bandG eig beta N (fftn Phase.complex fun r _ => h r)).fft κ Phase.complex [.R, .T]).data r n = g (tauGrid beta N n) r) := by
  have hL : ∀ i, 0 < L i := fun i => Nat.pos_of_ne_zero (NeZero.ne (L i))
  set H : (∀ i, Fin (L i)) → Matrix S S ℂ := fun k => fftn Phase.complex (fun r (_ : Fin 1) => h r) k 0 with hH
  have hreal : ∀ k i, (eig (H k)).1 i = (((eig (H k)).1 i).re : ℂ) := fun k i => real_levels (fftn_hermitian hh k) (heig k).2 (heig k).1 i
  set e : (∀ i, Fin (L i)) → S → ℝ := fun k i => ((eig (H k)).1 i).re with he
  have hd : ∀ k, H k * (eig (H k)).2 = (eig (H k)).2 * diagonal (fun i => (e k i : ℂ)) := by
    intro k
    have : (fun i => (e k i : ℂ)) = (eig (H k)).1 := by
      funext i
      exact (hreal k i).symm
    rw [this]
    exact (heig k).1
  set g : ℝ → (∀ i, Fin (L i)) → Matrix S S ℂ := fun t r => ifftn Phase.complex (fun k (_ : Fin 1) => levels (eig (H k)).2 (e k) beta t) r 0 with hg
  have hgt : ∀ t, (fun r (_ : Fin 1) => g t r) = ifftn Phase.complex (fun k (_ : Fin 1) => levels (eig (H k)).2 (e k) beta t) := by
    intro t
    funext r x
    rw [Subsingleton.elim x 0]
  have hgk : ∀ t k, fftn Phase.complex (fun r (_ : Fin 1) => g t r) k 0 = levels (eig (H k)).2 (e k) beta t := by
    intro t k
    rw [hgt, fftn_ifftn _ hL]
  have hdata : ∀ r n p q, ((bandG eig beta N (fftn Phase.complex fun r _ => h r)).fft κ Phase.complex [.R, .T]).data r n p q =
      (∏ i, (L i : ℂ))⁻¹ * ∑ k, Phase.complex.ph (-angle r k) * ∑ i, (eig (H k)).2 p i * fermiKernel ((e k i : ℝ) : ℂ) (tauGrid beta N n) beta * star ((eig (H k)).2 q i) := by
    intro r n p q
    have e0 : ((bandG eig beta N (fftn Phase.complex fun r _ => h r)).fft κ Phase.complex [.R, .T]).data =
        ifftn Phase.complex (bandG eig beta N (fftn Phase.complex fun r _ => h r)).data := by simp [Plain.fft, bandG]
    rw [e0]
    simp only [ifftn, Matrix.smul_apply, Matrix.sum_apply, smul_eq_mul, bandG]
    congr 1
    refine Finset.sum_congr rfl fun k _ => ?_
    congr 1
    rw [Matrix.mul_apply]
    refine Finset.sum_congr rfl fun i _ => ?_
    rw [Matrix.mul_diagonal, Matrix.conjTranspose_apply]
    have := hreal k i
    rw [hH] at this
    rw [this]
  have hgent : ∀ t r p q, g t r p q = (∏ i, (L i : ℂ))⁻¹ * ∑ k, Phase.complex.ph (-angle r k) * ∑ i, (eig (H k)).2 p i * (fermi (e k i) t beta : ℝ) * star ((eig (H k)).2 q i) := by
    intro t r p q
    simp only [hg, ifftn, Matrix.smul_apply, Matrix.sum_apply, smul_eq_mul, levels_apply]
  refine ⟨g, ?_, ?_, ?_, ?_⟩
  · rw [free_iff Phase.complex]
    intro k
    have := (momentum_iff (beta := beta) (heig k).2 (hd k) (fun t => fftn Phase.complex (fun r (_ : Fin 1) => g t r) k 0)).2 (by funext t; exact hgk t k)
    exact this
  · intro g' hg'
    rw [free_iff Phase.complex] at hg'
    funext t
    have h1 : (fun r (_ : Fin 1) => g' t r) = fun r (_ : Fin 1) => g t r := by
      rw [← ifftn_fftn Phase.complex hL (fun r (_ : Fin 1) => g' t r), hgt]
      congr 1
      funext k x
      rw [Subsingleton.elim x 0]
      have := (momentum_iff (beta := beta) (heig k).2 (hd k) (fun t => fftn Phase.complex (fun r (_ : Fin 1) => g' t r) k 0)).1 (hg' k)
      exact congrFun this t
    funext r
    exact congrFun (congrFun h1 r) 0
  · intro r n p q
    rw [hdata, hgent, ← mul_sub, ← Finset.sum_sub_distrib]
    simp only [← mul_sub, ← Finset.sum_sub_distrib]
    refine mean_le (fun k => ?_) r
    obtain ⟨t0, t1⟩ := tauGrid_mem hb n
    refine (norm_sum_le _ _).trans ?_
    have h1 : ∀ i, ‖(eig (H k)).2 p i * fermiKernel ((e k i : ℝ) : ℂ) (tauGrid beta N n) beta * star ((eig (H k)).2 q i) -
        (eig (H k)).2 p i * ((fermi (e k i) (tauGrid beta N n) beta : ℝ) : ℂ) * star ((eig (H k)).2 q i)‖ ≤ Real.exp (-200) * (‖(eig (H k)).2 p i‖ * ‖(eig (H k)).2 q i‖) := by
      intro i
      rw [← sub_mul, ← mul_sub, norm_mul, norm_mul, norm_star]
      have h2 := (C80_kernel (w := e k i) (t := tauGrid beta N n) hb).1
      have h3 : ‖fermiKernel ((e k i : ℝ) : ℂ) (tauGrid beta N n) beta - ((fermi (e k i) (tauGrid beta N n) beta : ℝ) : ℂ)‖ ≤ Real.exp (-200) := by
        refine h2.trans ?_
        have := fermi_le (w := e k i) t0 t1
        calc Real.exp (-200) * _ ≤ Real.exp (-200) * 1 := mul_le_mul_of_nonneg_left this (Real.exp_pos _).le
          _ = _ := mul_one _
      calc _ = ‖fermiKernel ((e k i : ℝ) : ℂ) (tauGrid beta N n) beta - ((fermi (e k i) (tauGrid beta N n) beta : ℝ) : ℂ)‖ * (‖(eig (H k)).2 p i‖ * ‖(eig (H k)).2 q i‖) := by ring
        _ ≤ _ := mul_le_mul_of_nonneg_right h3 (by positivity)
    refine (Finset.sum_le_sum fun i _ => h1 i).trans ?_
    rw [← Finset.mul_sum]
    calc _ ≤ Real.exp (-200) * 1 := mul_le_mul_of_nonneg_left (row_mul_le (heig k).2 p q) (Real.exp_pos _).le
      _ = _ := mul_one _
  · intro hs r n
    ext p q
    rw [hdata, hgent]
    congr 1
    refine Finset.sum_congr rfl fun k _ => ?_
    congr 1
    refine Finset.sum_congr rfl fun i _ => ?_
    have h1 : |beta * e k i| ≤ 200 := by
      have := hs k i
      rw [hreal k i] at this
      rw [← Complex.ofReal_mul, Complex.norm_real, Real.norm_eq_abs] at this
      exact this
    rw [(C80_kernel (w := e k i) (t := tauGrid beta N n) hb).2 h1]
    rfl

/-- C80: what numpy promises is enough for a matrix with distinct eigenvalues. -/
theorem C80_distinct {eig : Eig S} (he : EigContract eig) {H : Matrix S S ℂ} (hH : H.IsHermitian) (hi : Function.Injective (eig H).1) :
    H * (eig H).2 = (eig H).2 * diagonal (eig H).1 ∧ (eig H).2 ∈ unitaryGroup S ℂ := by
  obtain ⟨h1, h2, h3⟩ := he H
  refine ⟨h1, ?_⟩
  generalize (eig H).2 = U at h1 h2 h3
  generalize (eig H).1 = e at h1 hi
  have h4 : (Uᴴ * U) * diagonal e = diagonal (fun i => star (e i)) * (Uᴴ * U) := by
    have a1 : Uᴴ * (H * U) = Uᴴ * U * diagonal e := by rw [h1, Matrix.mul_assoc]
    have a2 : Uᴴ * H = diagonal (fun i => star (e i)) * Uᴴ := by
      have := congrArg Matrix.conjTranspose h1
      rw [Matrix.conjTranspose_mul, Matrix.conjTranspose_mul, hH.eq, Matrix.diagonal_conjTranspose] at this
      exact this
    rw [← a1, ← Matrix.mul_assoc, a2, Matrix.mul_assoc]
  have hdiag : ∀ i, (Uᴴ * U) i i = 1 := by
    intro i
    rw [Matrix.mul_apply]
    have : ∀ j, Uᴴ i j * U j i = ((‖U j i‖ ^ 2 : ℝ) : ℂ) := by
      intro j
      rw [Matrix.conjTranspose_apply, Complex.star_def, mul_comm, Complex.mul_conj, Complex.normSq_eq_norm_sq]
    simp only [this]
    rw [← Complex.ofReal_sum, h2 i, Complex.ofReal_one]
  have hre : ∀ i, star (e i) = e i := by
    intro i
    have := congrFun (congrFun h4 i) i
    rw [Matrix.mul_diagonal, Matrix.diagonal_mul, hdiag, one_mul, mul_one] at this
    exact this.symm
  rw [mem_unitaryGroup_iff']
  ext i j
  by_cases hij : i = j
  · subst hij
    rw [Matrix.one_apply_eq]
    exact hdiag i
  · rw [Matrix.one_apply_ne hij]
    have := congrFun (congrFun h4 i) j
    rw [Matrix.mul_diagonal, Matrix.diagonal_mul, hre] at this
    have h5 : (e j - e i) * (Uᴴ * U) i j = 0 := by linear_combination this
    exact (mul_eq_zero.1 h5).resolve_left (sub_ne_zero.2 fun h => hij (hi h).symm)

end

section
variable {n : ℕ} {L : Fin 2 → ℕ}

theorem spinOrbit_off {phase : List ℝ} (hp : Real.sqrt (phase.map fun x => x ^ 2).sum ≤ 1e-8) (i : ℕ) : spinOrbit phase i = some 1 := by
  simp only [spinOrbit]
  rw [if_neg]
  rintro ⟨_, h⟩
  exact absurd h (not_lt.2 hp)

theorem addHops_eq {L : Fin 2 → ℤ} (hL : ∀ i, 0 < L i) {t1 t2 : ℝ} {rest phase : List ℝ} {u1 u2 : Matrix (Fin 2) (Fin 2) ℂ} (hu1 : spinOrbit phase 0 = some u1) (hu2 : spinOrbit phase 1 = some u2)
    (l : List (Fin n × Fin n × (Fin 2 → ℤ) × ℕ)) (hl : ∀ x ∈ l, (∀ i, 0 ≤ x.2.2.1 i ∧ x.2.2.1 i < L i) ∧ (x.2.2.2 = 0 ∨ x.2.2.2 = 1)) (w : HopTable n) :
    ∃ w', addHops L (t1 :: t2 :: rest) phase w l = some w' ∧ ∀ r : Fin 2 → ℤ, (∀ i, 0 ≤ r i ∧ r i < L i) → ∀ s a s' b,
      w' s a s' b (vec2Index (List.ofFn L) (List.ofFn r)) = w s a s' b (vec2Index (List.ofFn L) (List.ofFn r)) +
        (l.map fun x => if a = x.1 ∧ b = x.2.1 ∧ r = x.2.2.1 then (if x.2.2.2 = 0 then -t1 * u1 s s' else -t2 * u2 s s') else 0).sum := by
  induction l generalizing w with
  | nil => exact ⟨w, rfl, by simp⟩
  | cons x l ih =>
    obtain ⟨i, j, e, k⟩ := x
    obtain ⟨he, hk⟩ := hl (i, j, e, k) (by simp)
    simp only at he hk
    have hr := ((index_round_trip (latOk_ofFn (by norm_num) hL)).1 _ (inLat_ofFn he))
    have hn : npIndex (latVol (List.ofFn L)) (vec2Index (List.ofFn L) (List.ofFn e)) = some (vec2Index (List.ofFn L) (List.ofFn e)) := by
      rw [npIndex, if_pos ⟨hr.1, hr.2.1⟩]
    obtain ⟨t, u, ht, hu, ht2⟩ : ∃ (t : ℝ) (u : Matrix (Fin 2) (Fin 2) ℂ), (t1 :: t2 :: rest)[k]? = some t ∧ spinOrbit phase k = some u ∧
        ∀ s s', -(t : ℂ) * u s s' = if k = 0 then -t1 * u1 s s' else -t2 * u2 s s' := by
      rcases hk with rfl | rfl
      · exact ⟨t1, u1, rfl, hu1, fun _ _ => rfl⟩
      · exact ⟨t2, u2, rfl, hu2, fun _ _ => rfl⟩
    set w1 : HopTable n := fun s a s' b r => if a = i ∧ b = j ∧ r = vec2Index (List.ofFn L) (List.ofFn e) then w s a s' b r + -t * u s s' else w s a s' b r with hw1
    have hb : addHop L (t1 :: t2 :: rest) phase w i j e k = some w1 := by
      rw [addHop, hn, ht, hu]
    obtain ⟨w', e1, e2⟩ := ih (fun x hx => hl x (List.mem_cons_of_mem _ hx)) w1
    refine ⟨w', by rw [addHops, hb]; exact e1, fun r hr s a s' b => ?_⟩
    rw [e2 r hr, List.map_cons, List.sum_cons]
    have hinj : vec2Index (List.ofFn L) (List.ofFn r) = vec2Index (List.ofFn L) (List.ofFn e) ↔ r = e := by
      constructor
      · intro h
        exact List.ofFn_injective (vec2Index_inj (latOk_ofFn (by norm_num) hL) (inLat_ofFn hr) (inLat_ofFn he) h)
      · rintro rfl; rfl
    simp only [hw1, hinj, ← ht2]
    split_ifs with h <;> ring

theorem hops_bonds (t : Neighbours 2 n) (h3 : ∀ i j, t.nnnn i j = []) (J1 J2 : ℂ) (r : Fin 2 → ℤ) (a b : Fin n) :
    (t.hops.map fun x => if a = x.1 ∧ b = x.2.1 ∧ r = x.2.2.1 then (if x.2.2.2 = 0 then J1 else J2) else 0).sum =
      ((t.nn a b).map fun e => if r = e then J1 else 0).sum + ((t.nnn a b).map fun e => if r = e then J2 else 0).sum := by
  have e : t.bonds J1 J2 0 = t.hops.map fun x => (x.1, x.2.1, x.2.2.1, if x.2.2.2 = 0 then J1 else J2) := by
    simp [Neighbours.bonds, Neighbours.hops, h3, List.map_flatMap, Function.comp_def]
  have := sum_bonds t J1 J2 0 r a b
  rw [e, List.map_map, h3] at this
  simpa [Function.comp_def] using this

theorem hops_mem {t : Neighbours 2 n} {x} (h : x ∈ t.hops) : (x.2.2.1 ∈ t.nn x.1 x.2.1 ∨ x.2.2.1 ∈ t.nnn x.1 x.2.1) ∧ (x.2.2.2 = 0 ∨ x.2.2.2 = 1) := by
  simp only [Neighbours.hops, List.mem_flatMap, List.mem_append, List.mem_map, List.mem_finRange, true_and] at h
  obtain ⟨i, j, ⟨e, he, rfl⟩ | ⟨e, he, rfl⟩⟩ := h <;> simp [he]

/-- The Hamiltonian in the code. -/
theorem bandBareG_eq (hL : ∀ i, 0 < L i) (E : Phase ℂ) (eig : Eig (Fin 2 × Fin n)) (beta : ℝ) (N : ℕ) (t : Neighbours 2 n) {geo : Geometry 2 n}
    {B1 B2 : Fin n → Fin n → List (Fin 2 → ℤ)} (h1 : ∀ a b, List.Forall₂ (Folds fun i => (L i : ℤ)) (t.nn a b) (B1 a b)) (h2 : ∀ a b, List.Forall₂ (Folds fun i => (L i : ℤ)) (t.nnn a b) (B2 a b))
    (h3 : ∀ i j, t.nnnn i j = []) (n1 : ∀ a b, (B1 a b).Nodup) (n2 : ∀ a b, (B2 a b).Nodup)
    (q1 : ∀ a b v, geo.neighbour 1 a b v ↔ v ∈ B1 a b) (q2 : ∀ a b v, geo.neighbour 2 a b v ↔ v ∈ B2 a b) (t1 t2 : ℝ) {rest phase : List ℝ}
    (hp : Real.sqrt (phase.map fun x => x ^ 2).sum ≤ 1e-8) (mu ext : List ℝ) :
    (bandBareG E eig beta N t (t1 :: t2 :: rest) phase mu ext : Plain L N _) =
      bandG eig beta N (fftn E fun r _ => hopping geo t1 t2 (mu.getD 0 0) (fun a => ext.getD a 0) r) := by
  have hL' : ∀ i, 0 < ((L i : ℕ) : ℤ) := fun i => by exact_mod_cast hL i
  obtain ⟨w, e1, e2⟩ := addHops_eq (rest := rest) (t1 := t1) (t2 := t2) hL' (spinOrbit_off hp 0) (spinOrbit_off hp 1) t.hops (fun x hx => by
    obtain ⟨h | h, hk⟩ := hops_mem hx
    · exact ⟨Folds.mem (h1 _ _) h, hk⟩
    · exact ⟨Folds.mem (h2 _ _) h, hk⟩) (fun _ _ _ _ _ => 0)
  rw [bandBareG, e1]
  simp only
  congr 1
  funext k x
  simp only [fftn, ← Finset.sum_add_distrib, ← smul_add]
  refine Finset.sum_congr rfl fun r _ => ?_
  congr 1
  ext p q
  obtain ⟨s, a⟩ := p
  obtain ⟨s', b⟩ := q
  have hr : ∀ i, 0 ≤ (((r i : ℕ) : ℕ) : ℤ) ∧ ((r i : ℕ) : ℤ) < L i := fun i => ⟨by positivity, by exact_mod_cast (r i).isLt⟩
  rw [Matrix.add_apply, HopTable.grid, HopTable.grid, e2 _ hr, hops_bonds t h3, hopping]
  have hu : ∀ x : ℝ, -(x : ℂ) * (1 : Matrix (Fin 2) (Fin 2) ℂ) s s' = if s = s' then -(x : ℂ) else 0 := by
    intro x
    rw [Matrix.one_apply]
    split_ifs <;> simp
  rw [hu, hu]
  obtain ⟨f1, g1⟩ := sum_folds hr (-(t1 : ℂ)) (h1 a b) (n1 a b) (q1 a b)
  obtain ⟨f2, g2⟩ := sum_folds hr (-(t2 : ℂ)) (h2 a b) (n2 a b) (q2 a b)
  have hz : vec2Index (List.ofFn fun i => (L i : ℤ)) (List.ofFn fun i => ((r i : ℕ) : ℤ)) = 0 ↔ ∀ i, (r i : ℕ) = 0 := by
    have h0 : ∀ i : Fin 2, 0 ≤ (0 : ℤ) ∧ (0 : ℤ) < L i := fun i => ⟨le_rfl, hL' i⟩
    have ez : vec2Index (List.ofFn fun i => (L i : ℤ)) (List.ofFn fun _ : Fin 2 => (0 : ℤ)) = 0 := by
      simp [List.ofFn_succ, vec2Index]
    constructor
    · intro h i
      rw [← ez] at h
      have := List.ofFn_injective (vec2Index_inj (latOk_ofFn (by norm_num) hL') (inLat_ofFn hr) (inLat_ofFn h0) h)
      exact_mod_cast congrFun this i
    · intro h
      simp only [h, Nat.cast_zero, ez]
  simp only [localTerm, hz, Prod.mk.injEq, and_assoc]
  congr 1
  · by_cases h : s = s'
    · simp only [if_pos h]
      rw [f1, f2, images_add g1 g2, zero_add]
    · simp [if_neg h]
  · by_cases hc : s = s' ∧ a = b ∧ ∀ i, (r i : ℕ) = 0
    · rw [if_pos hc, if_pos hc]
      fin_cases s
      · simp
      · simp
    · rw [if_neg hc, if_neg hc]

theorem neighbour_symm {d : ℕ} (geo : Geometry d n) (k : ℕ) (a b : Fin n) (v : Fin d → ℤ) : geo.neighbour k a b v ↔ geo.neighbour k b a (-v) := by
  have : geo.dist2 a b v = geo.dist2 b a (-v) := by
    unfold Geometry.dist2
    refine Finset.sum_congr rfl fun j _ => ?_
    have : geo.disp b a (-v) j = -geo.disp a b v j := by
      unfold Geometry.disp
      simp only [Pi.neg_apply, Int.cast_neg, neg_mul, Finset.sum_neg_distrib]
      ring
    rw [this, neg_sq]
  rw [Geometry.neighbour, Geometry.neighbour, this]

theorem hopping_hermitian [∀ i, NeZero (L i)] (geo : Geometry 2 n) (t1 t2 mu : ℝ) (field : Fin n → ℝ) : HermitianHopping (hopping (L := L) geo t1 t2 mu field) := by
  classical
  intro r p q
  have hcong : ∀ i, ((((-r) i : Fin (L i)) : ℕ) : ℤ) ≡ -((r i : ℕ) : ℤ) [ZMOD (L i : ℤ)] := by
    intro i
    have hv : (((-r) i : Fin (L i)) : ℕ) = (L i - (r i : ℕ)) % L i := by
      rw [Pi.neg_apply, Fin.val_neg']
    rw [hv]
    have hlt := (r i).isLt
    push_cast [hlt.le]
    refine (Int.mod_modEq _ _).trans ?_
    exact Int.modEq_iff_dvd.2 ⟨-1, by ring⟩
  have hzero : (∀ i, (((-r) i : Fin (L i)) : ℕ) = 0) ↔ ∀ i, (r i : ℕ) = 0 := by
    refine forall_congr' fun i => ?_
    rw [Pi.neg_apply, Fin.val_neg']
    have hlt := (r i).isLt
    constructor
    · intro h
      by_contra h0
      rw [Nat.mod_eq_of_lt (by omega)] at h
      omega
    · intro h
      rw [h]
      simp
  have himg : images (fun i => (L i : ℤ)) (fun i => (((-r) i : ℕ) : ℤ)) (fun v => onBonds (-t1) (geo.neighbour 1 q.2 p.2) v + onBonds (-t2) (geo.neighbour 2 q.2 p.2) v) =
      star (images (fun i => (L i : ℤ)) (fun i => ((r i : ℕ) : ℤ)) (fun v => onBonds (-t1) (geo.neighbour 1 p.2 q.2) v + onBonds (-t2) (geo.neighbour 2 p.2 q.2) v)) := by
    have hs : ∀ f : (Fin 2 → ℤ) → ℝ, star (∑ᶠ v, (f v : ℂ)) = ∑ᶠ v, (f v : ℂ) := by
      intro f
      by_cases hf : (Function.support fun v => (f v : ℂ)).Finite
      · rw [finsum_eq_sum _ hf, star_sum]
        exact Finset.sum_congr rfl fun v _ => by simp
      · rw [finsum_of_infinite_support hf]; simp
    have e1 : ∀ (c d : Fin n) (x : Fin 2 → ℤ), images (fun i => (L i : ℤ)) x (fun v => onBonds (-t1) (geo.neighbour 1 c d) v + onBonds (-t2) (geo.neighbour 2 c d) v) =
        ∑ᶠ v : Fin 2 → ℤ, (((if ∀ i, v i ≡ x i [ZMOD (L i : ℤ)] then (if geo.neighbour 1 c d v then -t1 else 0) + (if geo.neighbour 2 c d v then -t2 else 0) else 0 : ℝ)) : ℂ) := by
      intro c d x
      rw [images]
      refine finsum_congr fun v => ?_
      simp only [onBonds]
      split_ifs <;> simp
    rw [e1, e1, hs, ← finsum_comp_equiv (Equiv.neg (Fin 2 → ℤ))]
    refine finsum_congr fun v => ?_
    congr 1
    have c1 : (∀ i, (Equiv.neg (Fin 2 → ℤ)) v i ≡ (((-r) i : ℕ) : ℤ) [ZMOD (L i : ℤ)]) ↔ ∀ i, v i ≡ ((r i : ℕ) : ℤ) [ZMOD (L i : ℤ)] := by
      refine forall_congr' fun i => ?_
      have a1 : (Equiv.neg (Fin 2 → ℤ)) v i = -v i := rfl
      rw [a1]
      constructor
      · intro h
        simpa using (h.trans (hcong i)).neg
      · intro h
        exact h.neg.trans (hcong i).symm
    have c2 : ∀ k, geo.neighbour k q.2 p.2 ((Equiv.neg (Fin 2 → ℤ)) v) ↔ geo.neighbour k p.2 q.2 v := by
      intro k
      rw [neighbour_symm geo k p.2 q.2 v]
      rfl
    simp only [c1, c2]
  simp only [hopping, star_add]
  congr 1
  · rw [himg]
    by_cases h : p.1 = q.1
    · rw [if_pos h, if_pos h.symm]
    · rw [if_neg h, if_neg (Ne.symm h), star_zero]
  · simp only [hzero]
    by_cases h : p = q ∧ ∀ i, (r i : ℕ) = 0
    · rw [if_pos h, if_pos ⟨h.1.symm, h.2⟩, h.1]
      simp
    · rw [if_neg h, if_neg (fun h' => h ⟨h'.1.symm, h'.2⟩), star_zero]

end

section
variable {n : ℕ} {L : Fin 2 → ℕ} [∀ i, NeZero (L i)]

/-- Orthonormal eigenvectors by either reason. -/
theorem eig_ok {S : Type} [Fintype S] [DecidableEq S] {d : ℕ} {L : Fin d → ℕ} [∀ i, NeZero (L i)] {eig : Eig S} {h : (∀ i, Fin (L i)) → Matrix S S ℂ} (hh : HermitianHopping h)
    (heig : EigOrthonormal eig ∨ EigContract eig ∧ ∀ k, Function.Injective (eig (fftn Phase.complex (fun r (_ : Fin 1) => h r) k 0)).1) (k : ∀ i, Fin (L i)) :
    let H := fftn Phase.complex (fun r (_ : Fin 1) => h r) k 0; H * (eig H).2 = (eig H).2 * diagonal (eig H).1 ∧ (eig H).2 ∈ unitaryGroup S ℂ := by
  rcases heig with heig | ⟨heig, hi⟩
  · exact heig _ (fftn_hermitian hh k)
  · exact C80_distinct heig (fftn_hermitian hh k) (hi k)

theorem square_band (hL : ∀ i, 2 ≤ L i) (E : Phase ℂ) (eig : Eig (Fin 2 × Fin 1)) (beta : ℝ) (N : ℕ) (t1 t2 : ℝ) {rest phase : List ℝ}
    (hp : Real.sqrt (phase.map fun x => x ^ 2).sum ≤ 1e-8) (mu ext : List ℝ) :
    (bandBareG E eig beta N (square (L 0) (L 1)) (t1 :: t2 :: rest) phase mu ext : Plain L N _) =
      bandG eig beta N (fftn E fun r _ => hopping squareGeo t1 t2 (mu.getD 0 0) (fun a => ext.getD a 0) r) := by
  have h0 := hL 0
  have h1 := hL 1
  exact bandBareG_eq (fun i => by have := hL i; omega) E eig beta N (square (L 0) (L 1)) (B1 := squareB1) (B2 := squareB2)
    (fun a b => by fin_cases a <;> fin_cases b <;> simp [square, squareB1, Folds, Fin.forall_fin_two] <;> omega)
    (fun a b => by fin_cases a <;> fin_cases b <;> simp [square, squareB2, Folds, Fin.forall_fin_two] <;> omega)
    (fun _ _ => rfl) (by decide +kernel) (by decide +kernel) square_shells.1 square_shells.2 t1 t2 hp mu ext

theorem honeycomb_band (hL : ∀ i, 2 ≤ L i) (E : Phase ℂ) (eig : Eig (Fin 2 × Fin 2)) (beta : ℝ) (N : ℕ) (t1 t2 : ℝ) {rest phase : List ℝ}
    (hp : Real.sqrt (phase.map fun x => x ^ 2).sum ≤ 1e-8) (mu ext : List ℝ) :
    (bandBareG E eig beta N (honeycomb (L 0) (L 1)) (t1 :: t2 :: rest) phase mu ext : Plain L N _) =
      bandG eig beta N (fftn E fun r _ => hopping honeycombGeo t1 t2 (mu.getD 0 0) (fun a => ext.getD a 0) r) := by
  have h0 := hL 0
  have h1 := hL 1
  exact bandBareG_eq (fun i => by have := hL i; omega) E eig beta N (honeycomb (L 0) (L 1)) (B1 := honeycombB1) (B2 := honeycombB2)
    (fun a b => by fin_cases a <;> fin_cases b <;> simp [honeycomb, honeycombB1, Folds, Fin.forall_fin_two] <;> omega)
    (fun a b => by fin_cases a <;> fin_cases b <;> simp [honeycomb, honeycombB2, Folds, Fin.forall_fin_two] <;> omega)
    (fun _ _ => rfl) (by decide +kernel) (by decide +kernel) honeycomb_shells.1 honeycomb_shells.2 t1 t2 hp mu ext

/-- C80, square lattice, partial: without phases, with at least two hopping amplitudes, and if eigenvectors of Hermitian matrices are orthonormal, the bare propagator of a band model is that
of free particles hopping to nearest and next nearest neighbours, up to `exp(-200)` in each matrix element. What numpy promises about eigenvectors is enough if energies are not degenerate. -/
theorem C80_square_partial (hL : ∀ i, 2 ≤ L i) (κ : Kind) {beta : ℝ} (hb : 0 < beta) (N : ℕ) {eig : Eig (Fin 2 × Fin 1)} (t1 t2 : ℝ) {rest phase : List ℝ} (mu ext : List ℝ)
    (hp : Real.sqrt (phase.map fun x => x ^ 2).sum ≤ 1e-8)
    (heig : EigOrthonormal eig ∨ EigContract eig ∧ ∀ k, Function.Injective (eig (fftn Phase.complex
      (fun (r : ∀ i, Fin (L i)) (_ : Fin 1) => hopping squareGeo t1 t2 (mu.getD 0 0) (fun a => ext.getD a 0) r) k 0)).1) :
    ∃ g : ℝ → (∀ i, Fin (L i)) → Matrix (Fin 2 × Fin 1) (Fin 2 × Fin 1) ℂ, FreeParticles (hopping squareGeo t1 t2 (mu.getD 0 0) (fun a => ext.getD a 0)) beta g ∧
      (∀ g', FreeParticles (hopping squareGeo t1 t2 (mu.getD 0 0) (fun a => ext.getD a 0)) beta g' → g' = g) ∧
      ∀ r n p q, ‖((bandBareG Phase.complex eig beta N (square (L 0) (L 1)) (t1 :: t2 :: rest) phase mu ext).fft κ Phase.complex [.R, .T]).data r n p q -
        g (tauGrid beta N n) r p q‖ ≤ Real.exp (-200) := by
  rw [square_band hL Phase.complex eig beta N t1 t2 hp mu ext]
  have hh := hopping_hermitian (L := L) squareGeo t1 t2 (mu.getD 0 0) (fun a => ext.getD a 0)
  obtain ⟨g, g1, g2, g3, _⟩ := C80_bands κ hb N hh (eig_ok hh heig)
  exact ⟨g, g1, g2, g3⟩

/-- C80, honeycomb lattice, partial: as `C80_square_partial`. -/
theorem C80_honeycomb_partial (hL : ∀ i, 2 ≤ L i) (κ : Kind) {beta : ℝ} (hb : 0 < beta) (N : ℕ) {eig : Eig (Fin 2 × Fin 2)} (t1 t2 : ℝ) {rest phase : List ℝ} (mu ext : List ℝ)
    (hp : Real.sqrt (phase.map fun x => x ^ 2).sum ≤ 1e-8)
    (heig : EigOrthonormal eig ∨ EigContract eig ∧ ∀ k, Function.Injective (eig (fftn Phase.complex
      (fun (r : ∀ i, Fin (L i)) (_ : Fin 1) => hopping honeycombGeo t1 t2 (mu.getD 0 0) (fun a => ext.getD a 0) r) k 0)).1) :
    ∃ g : ℝ → (∀ i, Fin (L i)) → Matrix (Fin 2 × Fin 2) (Fin 2 × Fin 2) ℂ, FreeParticles (hopping honeycombGeo t1 t2 (mu.getD 0 0) (fun a => ext.getD a 0)) beta g ∧
      (∀ g', FreeParticles (hopping honeycombGeo t1 t2 (mu.getD 0 0) (fun a => ext.getD a 0)) beta g' → g' = g) ∧
      ∀ r n p q, ‖((bandBareG Phase.complex eig beta N (honeycomb (L 0) (L 1)) (t1 :: t2 :: rest) phase mu ext).fft κ Phase.complex [.R, .T]).data r n p q -
        g (tauGrid beta N n) r p q‖ ≤ Real.exp (-200) := by
  rw [honeycomb_band hL Phase.complex eig beta N t1 t2 hp mu ext]
  have hh := hopping_hermitian (L := L) honeycombGeo t1 t2 (mu.getD 0 0) (fun a => ext.getD a 0)
  obtain ⟨g, g1, g2, g3, _⟩ := C80_bands κ hb N hh (eig_ok hh heig)
  exact ⟨g, g1, g2, g3⟩

/-- The Hamiltonian of the square lattice is diagonal in the spin and the field splits it. -/
theorem square_split (t1 t2 mu : ℝ) (field : Fin 1 → ℝ) (k : ∀ i, Fin (L i)) :
    let H := fftn Phase.complex (fun (r : ∀ i, Fin (L i)) (_ : Fin 1) => hopping squareGeo t1 t2 mu field r) k 0
    H (0, 0) (0, 0) - H (1, 0) (1, 0) = 2 * field 0 := by
  intro H
  have hz : ∀ r : ∀ i, Fin (L i), (∀ i, (r i : ℕ) = 0) ↔ r = 0 := by
    intro r
    rw [funext_iff]
    exact forall_congr' fun i => by rw [Fin.ext_iff]; rfl
  simp only [H, fftn, Matrix.sum_apply, Matrix.smul_apply, smul_eq_mul, ← Finset.sum_sub_distrib, ← mul_sub]
  rw [Finset.sum_eq_single 0]
  · simp [hopping, angle, (Phase.complex.one_iff 0).2 ⟨0, by simp⟩]
    ring
  · intro r _ hr
    have hr' : ¬ ∀ i, (r i : ℕ) = 0 := fun h => hr ((hz r).1 h)
    simp only [hopping, hr', and_false, if_false]
    simp
  · simp

/-- C80, square lattice: in a field the energies are not degenerate, and what numpy promises is enough. -/
theorem C80_field (hL : ∀ i, 2 ≤ L i) (κ : Kind) {beta : ℝ} (hb : 0 < beta) (N : ℕ) {eig : Eig (Fin 2 × Fin 1)} (heig : EigContract eig) (t1 t2 : ℝ) {rest phase : List ℝ} (mu ext : List ℝ)
    (hp : Real.sqrt (phase.map fun x => x ^ 2).sum ≤ 1e-8) (hf : ext.getD 0 0 ≠ 0) :
    ∃ g : ℝ → (∀ i, Fin (L i)) → Matrix (Fin 2 × Fin 1) (Fin 2 × Fin 1) ℂ, FreeParticles (hopping squareGeo t1 t2 (mu.getD 0 0) (fun _ => ext.getD 0 0)) beta g ∧
      (∀ g', FreeParticles (hopping squareGeo t1 t2 (mu.getD 0 0) (fun _ => ext.getD 0 0)) beta g' → g' = g) ∧
      ∀ r n p q, ‖((bandBareG Phase.complex eig beta N (square (L 0) (L 1)) (t1 :: t2 :: rest) phase mu ext).fft κ Phase.complex [.R, .T]).data r n p q -
        g (tauGrid beta N n) r p q‖ ≤ Real.exp (-200) := by
  have hfield : (fun a : Fin 1 => ext.getD a 0) = fun _ => ext.getD 0 0 := by
    funext a
    fin_cases a
    rfl
  have key := C80_square_partial hL κ hb N (eig := eig) t1 t2 (rest := rest) mu ext hp (.inr ⟨heig, fun k => ?_⟩)
  · rw [hfield] at key
    exact key
  have hs := square_split (L := L) t1 t2 (mu.getD 0 0) (fun a => ext.getD a 0) k
  have hh := fftn_hermitian (hopping_hermitian (L := L) squareGeo t1 t2 (mu.getD 0 0) (fun a => ext.getD a 0)) k
  simp only at hs
  generalize fftn Phase.complex (fun (r : ∀ i, Fin (L i)) (_ : Fin 1) => hopping squareGeo t1 t2 (mu.getD 0 0) (fun a => ext.getD a 0) r) k 0 = H at hs hh
  obtain ⟨h1, _, h3⟩ := heig H
  have hu := h3 hh
  generalize (eig H).2 = U at h1 hu
  generalize (eig H).1 = e at h1
  by_contra hi
  have hc : ∀ i, e i = e (0, 0) := by
    have : e (1, 0) = e (0, 0) := by
      by_contra hne
      apply hi
      rintro ⟨a, a'⟩ ⟨b, b'⟩ hab
      obtain rfl : a' = 0 := Subsingleton.elim _ _
      obtain rfl : b' = 0 := Subsingleton.elim _ _
      fin_cases a <;> fin_cases b
      · rfl
      · exact absurd hab.symm hne
      · exact absurd hab hne
      · rfl
    rintro ⟨a, a'⟩
    obtain rfl : a' = 0 := Subsingleton.elim _ _
    fin_cases a
    · rfl
    · exact this
  have hd : diagonal e = e (0, 0) • (1 : Matrix (Fin 2 × Fin 1) (Fin 2 × Fin 1) ℂ) := by
    have : e = fun _ => e (0, 0) := funext hc
    rw [this, ← Matrix.smul_one_eq_diagonal]
  have hH : H = e (0, 0) • (1 : Matrix (Fin 2 × Fin 1) (Fin 2 × Fin 1) ℂ) := by
    have hinv := Matrix.mul_nonsing_inv U hu
    calc H = H * U * U⁻¹ := by rw [Matrix.mul_assoc, hinv, Matrix.mul_one]
      _ = U * diagonal e * U⁻¹ := by rw [h1]
      _ = e (0, 0) • (1 : Matrix (Fin 2 × Fin 1) (Fin 2 × Fin 1) ℂ) := by rw [hd, Matrix.mul_smul, Matrix.mul_one, Matrix.smul_mul, hinv]
  rw [hH] at hs
  simp at hs
  exact hf hs

/-! Where it fails. -/

theorem addHops_short {L : Fin 2 → ℤ} {hop phase : List ℝ} (hs : hop.length < 2) (l : List (Fin n × Fin n × (Fin 2 → ℤ) × ℕ)) (h : ∃ x ∈ l, x.2.2.2 = 1) (w : HopTable n) :
    addHops L hop phase w l = none := by
  induction l generalizing w with
  | nil => simp at h
  | cons x l ih =>
    obtain ⟨i, j, e, k⟩ := x
    rw [addHops]
    by_cases hk : k = 1
    · subst hk
      have : hop[1]? = none := by rw [List.getElem?_eq_none_iff]; omega
      simp [addHop, this]
    · obtain ⟨x, hx, hx1⟩ := h
      rcases List.mem_cons.1 hx with rfl | hx
      · exact absurd hx1 hk
      · cases addHop L hop phase w i j e k with
        | none => rfl
        | some w => exact ih ⟨x, hx, hx1⟩ w

/-- C80 fails with a single hopping amplitude: the amplitude for next nearest neighbours is not taken as zero; `BareG` stays zero, which is not a propagator of anything. -/
theorem C80_refuted_single (E : Phase ℂ) (eig : Eig (Fin 2 × Fin 1)) (beta : ℝ) (N : ℕ) (t1 : ℝ) (phase mu ext : List ℝ) (κ : Kind) :
    ((bandBareG E eig beta N (square (L 0) (L 1)) [t1] phase mu ext : Plain L N _).fft κ E [.R, .T]).data = (fun _ _ => 0) ∧
      ¬ ∃ h : (∀ i, Fin (L i)) → Matrix (Fin 2 × Fin 1) (Fin 2 × Fin 1) ℂ, FreeParticles h beta fun _ _ => 0 := by
  constructor
  · rw [bandBareG, addHops_short (by simp) _ ⟨(0, 0, ![1, 1], 1), by simp [Neighbours.hops, square], rfl⟩]
    simp [Plain.fft]
  · rintro ⟨h, _, h2⟩
    have := h2 0
    simp at this

end

section
variable {L : Fin 2 → ℕ} [∀ i, NeZero (L i)]

/-- Hermitian matrices have orthonormal eigenvectors. -/
theorem exists_orthonormal {S : Type} [Fintype S] [DecidableEq S] {H : Matrix S S ℂ} (hH : H.IsHermitian) :
    ∃ (e : S → ℂ) (U : Matrix S S ℂ), H * U = U * diagonal e ∧ U ∈ unitaryGroup S ℂ := by
  refine ⟨fun i => (hH.eigenvalues i : ℂ), hH.eigenvectorUnitary, ?_, hH.eigenvectorUnitary.2⟩
  have h := hH.spectral_theorem
  rw [Unitary.conjStarAlgAut_apply] at h
  have key : ∀ U D : Matrix S S ℂ, H = U * D * star U → star U * U = 1 → H * U = U * D := by
    intro U D h1 h2
    rw [h1, Matrix.mul_assoc, h2, Matrix.mul_one]
  exact key _ _ h (mem_unitaryGroup_iff'.1 hH.eigenvectorUnitary.2)

theorem unitary_columns {S : Type} [Fintype S] [DecidableEq S] {U : Matrix S S ℂ} (hU : U ∈ unitaryGroup S ℂ) : (∀ j, ∑ i, ‖U i j‖ ^ 2 = 1) ∧ IsUnit U.det := by
  constructor
  · intro j
    have h := row_norm (U := Uᴴ) (by
      rw [mem_unitaryGroup_iff']
      have := mem_unitaryGroup_iff.1 hU
      simpa [star_eq_conjTranspose] using this) j
    simpa [Matrix.conjTranspose_apply] using h
  · rw [← Matrix.isUnit_iff_isUnit_det]
    exact ⟨⟨U, Uᴴ, mem_unitaryGroup_iff.1 hU, mem_unitaryGroup_iff'.1 hU⟩, rfl⟩

/-- Every matrix has what numpy promises. -/
theorem exists_eig {S : Type} [Fintype S] [DecidableEq S] [Nonempty S] (H : Matrix S S ℂ) :
    ∃ (e : S → ℂ) (U : Matrix S S ℂ), H * U = U * diagonal e ∧ (∀ j, ∑ i, ‖U i j‖ ^ 2 = 1) ∧ (H.IsHermitian → IsUnit U.det) := by
  by_cases hH : H.IsHermitian
  · obtain ⟨e, U, h1, h2⟩ := exists_orthonormal hH
    exact ⟨e, U, h1, (unitary_columns h2).1, fun _ => (unitary_columns h2).2⟩
  · obtain ⟨c, hc⟩ := Module.End.exists_eigenvalue (Matrix.toLin' H)
    obtain ⟨v, hv⟩ := hc.exists_hasEigenvector
    have hv1 : H *ᵥ v = c • v := by
      have := hv.apply_eq_smul
      rwa [Matrix.toLin'_apply] at this
    have hn : 0 < ∑ i, ‖v i‖ ^ 2 := by
      obtain ⟨i, hi⟩ := Function.ne_iff.1 hv.2
      refine Finset.sum_pos' (fun i _ => by positivity) ⟨i, Finset.mem_univ i, ?_⟩
      have : v i ≠ 0 := hi
      positivity
    set m := Real.sqrt (∑ i, ‖v i‖ ^ 2) with hm
    have hm2 : m ^ 2 = ∑ i, ‖v i‖ ^ 2 := Real.sq_sqrt hn.le
    have hm0 : 0 < m := Real.sqrt_pos.2 hn
    refine ⟨fun _ => c, Matrix.of fun i _ => (m : ℂ)⁻¹ * v i, ?_, ?_, fun h => absurd h hH⟩
    · ext i j
      have := congrFun hv1 i
      rw [Matrix.mulVec, dotProduct] at this
      rw [Matrix.mul_diagonal, Matrix.mul_apply]
      simp only [Matrix.of_apply]
      have e1 : ∑ l, H i l * ((m : ℂ)⁻¹ * v l) = (m : ℂ)⁻¹ * ∑ l, H i l * v l := by
        rw [Finset.mul_sum]
        exact Finset.sum_congr rfl fun l _ => by ring
      rw [e1, this]
      simp only [Pi.smul_apply, smul_eq_mul]
      ring
    · intro j
      have : ∀ i, ‖(m : ℂ)⁻¹ * v i‖ ^ 2 = (m ^ 2)⁻¹ * ‖v i‖ ^ 2 := by
        intro i
        rw [norm_mul, norm_inv, Complex.norm_real, Real.norm_eq_abs, mul_pow, inv_pow, sq_abs]
      simp only [Matrix.of_apply, this, ← Finset.mul_sum, ← hm2]
      field_simp

/-- The hypotheses can be met. -/
theorem exists_eigOrthonormal (S : Type) [Fintype S] [DecidableEq S] : ∃ eig : Eig S, EigOrthonormal eig := by
  classical
  have h : ∀ H : Matrix S S ℂ, ∃ x : (S → ℂ) × Matrix S S ℂ, H.IsHermitian → H * x.2 = x.2 * diagonal x.1 ∧ x.2 ∈ unitaryGroup S ℂ := by
    intro H
    by_cases hH : H.IsHermitian
    · obtain ⟨e, U, h⟩ := exists_orthonormal hH
      exact ⟨(e, U), fun _ => h⟩
    · exact ⟨(0, 0), fun h => absurd h hH⟩
  choose f hf using h
  exact ⟨f, hf⟩

theorem hopping_zero (geo : Geometry 2 1) : hopping (L := L) geo 0 0 0 (fun _ => 0) = fun _ => 0 := by
  funext r
  ext p q
  simp [hopping, images, onBonds]

/-- C80 fails if only what numpy promises is known: when the two spins have the same energy, eigenvectors need not be orthogonal, and the propagator need not be that of free particles. -/
theorem C80_refuted_degenerate (hL : ∀ i, 2 ≤ L i) : ∃ eig : Eig (Fin 2 × Fin 1), EigContract eig ∧ ∀ (κ : Kind) (N : ℕ) (n : Fin N) (g : ℝ → (∀ i, Fin (L i)) → Matrix (Fin 2 × Fin 1) (Fin 2 × Fin 1) ℂ),
    FreeParticles (hopping squareGeo 0 0 0 (fun _ => 0)) 1 g →
      ((bandBareG Phase.complex eig 1 N (square (L 0) (L 1)) [0, 0] [] [] [] : Plain L N _).fft κ Phase.complex [.R, .T]).data 0 n (0, 0) (1, 0) - g (tauGrid 1 N n) 0 (0, 0) (1, 0) = 1 / 4 := by
  classical
  have hex : ∀ H : Matrix (Fin 2 × Fin 1) (Fin 2 × Fin 1) ℂ, ∃ x : (Fin 2 × Fin 1 → ℂ) × Matrix (Fin 2 × Fin 1) (Fin 2 × Fin 1) ℂ,
      H * x.2 = x.2 * diagonal x.1 ∧ (∀ j, ∑ i, ‖x.2 i j‖ ^ 2 = 1) ∧ (H.IsHermitian → IsUnit x.2.det) := by
    intro H
    obtain ⟨e, U, h⟩ := exists_eig H
    exact ⟨(e, U), h⟩
  choose f hf using hex
  set c : ℂ := (((Real.sqrt 2)⁻¹ : ℝ) : ℂ) with hc
  have hc2 : c * c = 1 / 2 := by
    rw [hc, ← Complex.ofReal_mul, ← mul_inv, Real.mul_self_sqrt (by norm_num)]
    norm_num
  have hcn : ‖c‖ ^ 2 = 1 / 2 := by
    rw [hc, Complex.norm_real, Real.norm_eq_abs, sq_abs, inv_pow, Real.sq_sqrt (by norm_num)]
    norm_num
  have hcs : star c = c := by rw [hc]; exact Complex.conj_ofReal _
  set V : Matrix (Fin 2 × Fin 1) (Fin 2 × Fin 1) ℂ := fun p q => if q.1 = 0 then (if p.1 = 0 then 1 else 0) else c with hV
  have hsum : ∀ φ : Fin 2 × Fin 1 → ℂ, ∑ i, φ i = φ (0, 0) + φ (1, 0) := by
    intro φ
    rw [Fintype.sum_prod_type]
    simp
  have hsumR : ∀ φ : Fin 2 × Fin 1 → ℝ, ∑ i, φ i = φ (0, 0) + φ (1, 0) := by
    intro φ
    rw [Fintype.sum_prod_type]
    simp
  refine ⟨fun H => if H = 0 then (fun _ => 0, V) else f H, ?_, ?_⟩
  · intro H
    by_cases h : H = 0
    · simp only [if_pos h]
      subst h
      refine ⟨?_, ?_, fun _ => ?_⟩
      · have : diagonal (fun _ : Fin 2 × Fin 1 => (0 : ℂ)) = 0 := Matrix.diagonal_zero
        rw [this, Matrix.zero_mul, Matrix.mul_zero]
      · rintro ⟨j, j'⟩
        rw [hsumR]
        fin_cases j
        · simp [hV]
        · simp only [hV]
          simp [hcn]
          norm_num
      · have hW : V * Matrix.of (fun p q : Fin 2 × Fin 1 => if p.1 = 0 then (if q.1 = 0 then 1 else -1) else if q.1 = 0 then 0 else 2 * c) = 1 := by
          ext ⟨p, p'⟩ ⟨q, q'⟩
          obtain rfl : p' = 0 := Subsingleton.elim _ _
          obtain rfl : q' = 0 := Subsingleton.elim _ _
          rw [Matrix.mul_apply, hsum]
          fin_cases p <;> fin_cases q <;> simp [hV] <;> linear_combination 2 * hc2
        exact (Matrix.isUnit_iff_isUnit_det _).1 (IsUnit.of_mul_eq_one _ hW)
    · simp only [if_neg h]
      exact hf H
  · intro κ N n g hg
    have hp : Real.sqrt ((([] : List ℝ)).map fun x => x ^ 2).sum ≤ 1e-8 := by simp; norm_num
    have hz : (fun a : Fin 1 => ([] : List ℝ).getD a 0) = fun _ => 0 := by funext a; simp
    have hm : ([] : List ℝ).getD 0 0 = 0 := rfl
    have hfree : FreeParticles (L := L) (fun _ => (0 : Matrix (Fin 2 × Fin 1) (Fin 2 × Fin 1) ℂ)) 1 g := by
      rw [hopping_zero] at hg
      exact hg
    rw [square_band hL Phase.complex _ 1 N 0 0 hp [] [], hz, hm, hopping_zero]
    have hf0 : fftn Phase.complex (fun (_ : ∀ i, Fin (L i)) (_ : Fin 1) => (0 : Matrix (Fin 2 × Fin 1) (Fin 2 × Fin 1) ℂ)) = fun _ _ => 0 := by
      funext k x
      simp [fftn]
    rw [hf0]
    have hgz : g (tauGrid 1 N n) 0 (0, 0) (1, 0) = 0 := by
      have hd : ∀ t, HasDerivAt (fun t => g t 0 (0, 0) (1, 0)) 0 t := by
        intro t
        have := hfree.1 t 0 (0, 0) (1, 0)
        simpa using this
      have hcst : ∀ t, g t 0 (0, 0) (1, 0) = g 0 0 (0, 0) (1, 0) := fun t =>
        is_const_of_deriv_eq_zero (fun t => (hd t).differentiableAt) (fun t => (hd t).deriv) t 0
      have hj := congrFun (congrFun (hfree.2 0) (0, 0)) (1, 0)
      have h0 : ∀ i : Fin 2, (((0 : ∀ i, Fin (L i)) i : Fin (L i)) : ℕ) = 0 := fun i => by simp
      rw [if_pos h0, Matrix.add_apply, hcst 1, Matrix.one_apply_ne (by simp)] at hj
      rw [hcst]
      linear_combination hj / 2
    rw [hgz, sub_zero]
    have hk : fermiKernel 0 (tauGrid 1 N n) 1 = 1 / 2 := by
      have := (C80_kernel (w := 0) (t := tauGrid 1 N n) (beta := 1) one_pos).2 (by norm_num)
      rw [Complex.ofReal_zero] at this
      rw [this]
      norm_num
    set X := bandG (fun H => if H = 0 then (fun _ => 0, V) else f H) 1 N (fun (_ : ∀ i, Fin (L i)) (_ : Fin 1) => (0 : Matrix (Fin 2 × Fin 1) (Fin 2 × Fin 1) ℂ)) with hX
    have e0 : (X.fft κ Phase.complex [.R, .T]).data = ifftn Phase.complex X.data := by simp [Plain.fft, X, bandG]
    have e1 : ∀ k, X.data k n (0, 0) (1, 0) = 1 / 4 := by
      intro k
      simp only [hX, bandG, if_true, hk]
      rw [Matrix.mul_apply, hsum, Matrix.mul_diagonal, Matrix.mul_diagonal, Matrix.conjTranspose_apply, Matrix.conjTranspose_apply]
      simp [hV]
      rw [← Complex.star_def, hcs]
      linear_combination hc2 / 2
    have hP : (∏ i, (L i : ℂ)) ≠ 0 := Finset.prod_ne_zero_iff.2 fun i _ => by exact_mod_cast NeZero.ne (L i)
    rw [e0]
    simp only [ifftn, Matrix.smul_apply, Matrix.sum_apply, smul_eq_mul, e1]
    have e2 : ∀ k : ∀ i, Fin (L i), Phase.complex.ph (-angle 0 k) = 1 := by
      intro k
      simp [angle, (Phase.complex.one_iff 0).2 ⟨0, by simp⟩]
    simp only [e2, one_mul, Finset.sum_const, nsmul_eq_mul, Finset.card_univ, Fintype.card_pi, Fintype.card_fin, Nat.cast_prod]
    rw [inv_mul_cancel_left₀ hP]

/-- The matrix for a phase around the third axis. -/
theorem spinOrbit_z (i : ℕ) (hi : i < 3) : spinOrbit [0, 0, Real.pi / 2] i = some (Complex.I • !![1, 0; 0, -1]) := by
  have hpi := Real.pi_gt_three
  have hm : Real.sqrt ((([0, 0, Real.pi / 2] : List ℝ)).map fun x => x ^ 2).sum = Real.pi / 2 := by
    simp
    rw [Real.sqrt_sq (by positivity)]
  simp only [spinOrbit, hm]
  rw [if_pos ⟨by simpa using hi, by norm_num; linarith⟩]
  simp only [List.getElem?_cons_zero, List.getElem?_cons_succ, Real.cos_pi_div_two, Real.sin_pi_div_two]
  congr 1
  have hpc : (Real.pi : ℂ) ≠ 0 := by exact_mod_cast Real.pi_ne_zero
  ext a b
  fin_cases a <;> fin_cases b <;> simp [pyPauli]

/-- C80 fails with a phase: the same matrix is used for a hop and for the hop back, and the Hamiltonian is not Hermitian. -/
theorem C80_refuted_phase (hL : ∀ i, 2 ≤ L i) {t1 t2 : ℝ} (ht : t1 ≠ 0) : ∃ w : HopTable 1,
    addHops (fun i => (L i : ℤ)) [t1, t2] [0, 0, Real.pi / 2] (fun _ _ _ _ _ => 0) (square (L 0) (L 1)).hops = some w ∧ ¬ HermitianHopping (L := L) fun r => w.grid r 0 := by
  have h0 := hL 0
  have h1 := hL 1
  have hL' : ∀ i, 0 < ((L i : ℕ) : ℤ) := fun i => by have := hL i; omega
  obtain ⟨w, e1, e2⟩ := addHops_eq (rest := []) (t1 := t1) (t2 := t2) hL' (spinOrbit_z 0 (by norm_num)) (spinOrbit_z 1 (by norm_num)) (square (L 0) (L 1)).hops (fun x hx => by
    obtain ⟨h | h, hk⟩ := hops_mem hx <;> refine ⟨?_, hk⟩
    · have := h
      simp [square] at h
      rcases h with h | h | h | h <;> rw [h] <;> simp [Fin.forall_fin_two] <;> omega
    · simp [square] at h
      rcases h with h | h | h | h <;> rw [h] <;> simp [Fin.forall_fin_two] <;> omega) (fun _ _ _ _ _ => 0)
  refine ⟨w, e1, fun hc => ?_⟩
  set r : ∀ i, Fin (L i) := fun i => ⟨if i = 0 then 1 else 0, by have := hL i; split_ifs <;> omega⟩ with hr
  have hval : ∀ x : ∀ i, Fin (L i), w.grid x 0 (0, 0) (0, 0) = _ := fun x => by
    have hx : ∀ i, 0 ≤ (((x i : ℕ) : ℕ) : ℤ) ∧ ((x i : ℕ) : ℤ) < L i := fun i => ⟨by positivity, by exact_mod_cast (x i).isLt⟩
    rw [HopTable.grid, e2 _ hx, hops_bonds _ (fun _ _ => rfl)]
  have hr0 : (fun i => ((r i : ℕ) : ℤ)) = ![1, 0] := by
    funext i
    fin_cases i <;> simp [hr]
  have hr1 : (fun i => (((-r) i : ℕ) : ℤ)) = ![(L 0 : ℤ) - 1, 0] := by
    funext i
    fin_cases i
    · simp [hr, Fin.val_neg']
      omega
    · simp [hr]
  have key := hc r (0, 0) (0, 0)
  simp only at key
  rw [hval, hval, hr0, hr1] at key
  have n3 : ¬ (0 = (L 1 : ℤ) - 1) := by omega
  have n4 : ¬ ((L 0 : ℤ) - 1 = 0) := by omega
  have hti : (t1 : ℂ) * Complex.I ≠ 0 := mul_ne_zero (by exact_mod_cast ht) Complex.I_ne_zero
  by_cases h2 : L 0 = 2
  · simp [square, h2, n3] at key
    have : (t1 : ℂ) * Complex.I = 0 := by linear_combination -key / 4
    exact hti this
  · have n5 : ¬ ((L 0 : ℤ) - 1 = 1) := by omega
    have n6 : ¬ (1 = (L 0 : ℤ) - 1) := by omega
    simp [square, n3, n4, n5, n6] at key
    have : (t1 : ℂ) * Complex.I = 0 := by linear_combination -key / 2
    exact hti this

/-- C80 fails with a phase around the first axis: the matrix of the hop is not unitary; for an eighth of a turn it is singular. -/
theorem C80_refuted_pauli : ∃ u, spinOrbit [Real.pi / 4, 0, 0] 0 = some u ∧ u.det = 0 := by
  have hpi := Real.pi_gt_three
  have hm : Real.sqrt ((([Real.pi / 4, 0, 0] : List ℝ)).map fun x => x ^ 2).sum = Real.pi / 4 := by
    simp
    rw [Real.sqrt_sq (by positivity)]
  simp only [spinOrbit, hm]
  rw [if_pos ⟨by simp, by norm_num; linarith⟩]
  refine ⟨_, rfl, ?_⟩
  have hpc : (Real.pi : ℂ) ≠ 0 := by exact_mod_cast Real.pi_ne_zero
  simp [pyPauli, Matrix.det_fin_two]
  field_simp
  rw [Complex.I_sq]
  ring

end

/-- C80: the field has not the meaning that it has in the spin models (C69): here it lowers the energy of spin 1 by twice its value with respect to spin 0, there it raises it by
its value. -/
theorem C80_refuted_sign (beta x : ℝ) :
    (localTerm [] [x] : HopTable 1) 1 0 1 0 0 - (localTerm [] [x] : HopTable 1) 0 0 0 0 0 = -(2 * x) ∧ -spinMu false beta x 1 - -spinMu false beta x 0 = x := by
  constructor
  · simp [localTerm]
    ring
  · simp [spinMu, pyPauli]
    ring

/-! Cases that meet the hypotheses. -/

/-- A level below and one above the range of the exact branch. -/
example : fermiKernel (100 : ℝ) 1 1 = (Real.exp (-(100 * 1)) / (1 + Real.exp (-(1 * 100))) : ℝ) ∧
    ‖fermiKernel (300 : ℝ) 1 1 - (Real.exp (-(300 * 1)) / (1 + Real.exp (-(1 * 300))) : ℝ)‖ ≤ Real.exp (-200) * (Real.exp (-(300 * 1)) / (1 + Real.exp (-(1 * 300)))) :=
  ⟨(C80_kernel one_pos).2 (by norm_num [abs_of_pos]), (C80_kernel one_pos).1⟩

instance : ∀ i : Fin 2, NeZero ((fun _ => 4 : Fin 2 → ℕ) i) := fun _ => ⟨by norm_num⟩

/-- Half filling on a square lattice with 16 sites, and a doped honeycomb lattice with 32 sites in a staggered field. -/
example (κ : Kind) (N : ℕ) : ∃ (eig : Eig (Fin 2 × Fin 1)) (g : ℝ → (∀ i, Fin ((fun _ => 4 : Fin 2 → ℕ) i)) → Matrix (Fin 2 × Fin 1) (Fin 2 × Fin 1) ℂ), ∀ r n p q,
    ‖((bandBareG Phase.complex eig 2 N (square 4 4) [1, 0.3, 0, 0] [0, 0, 0, 0] [0] [] : Plain (fun _ => 4) N _).fft κ Phase.complex [.R, .T]).data r n p q -
    g (tauGrid 2 N n) r p q‖ ≤ Real.exp (-200) := by
  obtain ⟨eig, he⟩ := exists_eigOrthonormal (Fin 2 × Fin 1)
  obtain ⟨g, _, _, h⟩ := C80_square_partial (L := fun _ => 4) (fun _ => by norm_num) κ (beta := 2) (by norm_num) N (eig := eig) 1 0.3 (rest := [0, 0]) (phase := [0, 0, 0, 0]) [0] []
    (by simp; norm_num) (.inl he)
  exact ⟨eig, g, h⟩

example (κ : Kind) (N : ℕ) : ∃ (eig : Eig (Fin 2 × Fin 2)) (g : ℝ → (∀ i, Fin ((fun _ => 4 : Fin 2 → ℕ) i)) → Matrix (Fin 2 × Fin 2) (Fin 2 × Fin 2) ℂ), ∀ r n p q,
    ‖((bandBareG Phase.complex eig 2 N (honeycomb 4 4) [1, 0.3, 0, 0] [] [0.5] [0.1, -0.1] : Plain (fun _ => 4) N _).fft κ Phase.complex [.R, .T]).data r n p q -
    g (tauGrid 2 N n) r p q‖ ≤ Real.exp (-200) := by
  obtain ⟨eig, he⟩ := exists_eigOrthonormal (Fin 2 × Fin 2)
  obtain ⟨g, _, _, h⟩ := C80_honeycomb_partial (L := fun _ => 4) (fun _ => by norm_num) κ (beta := 2) (by norm_num) N (eig := eig) 1 0.3 (rest := [0, 0]) (phase := []) [0.5] [0.1, -0.1]
    (by simp; norm_num) (.inl he)
  exact ⟨eig, g, h⟩

/-- A square lattice in a field, with any eigenvectors that numpy may return. -/
example (κ : Kind) (N : ℕ) : ∃ eig : Eig (Fin 2 × Fin 1), EigContract eig ∧ ∃ g : ℝ → (∀ i, Fin ((fun _ => 4 : Fin 2 → ℕ) i)) → Matrix (Fin 2 × Fin 1) (Fin 2 × Fin 1) ℂ, ∀ r n p q,
    ‖((bandBareG Phase.complex eig 2 N (square 4 4) [1, 0.3, 0, 0] [] [0] [0.1] : Plain (fun _ => 4) N _).fft κ Phase.complex [.R, .T]).data r n p q - g (tauGrid 2 N n) r p q‖ ≤ Real.exp (-200) := by
  choose e U h using fun H : Matrix (Fin 2 × Fin 1) (Fin 2 × Fin 1) ℂ => exists_eig H
  have he : EigContract fun H => (e H, U H) := h
  obtain ⟨g, _, _, h⟩ := C80_field (L := fun _ => 4) (fun _ => by norm_num) κ (beta := 2) (by norm_num) N he 1 0.3 (rest := [0, 0]) (phase := []) [0] [0.1]
    (by simp; norm_num) (by norm_num)
  exact ⟨_, he, g, h⟩

end Feyn
