import Verif.Spec.Momenta
import Verif.Props.Fourier
import Verif.Props.Bonds

/-!
# Momenta and susceptibilities (C67, C68)
-/

namespace Feyn

section
variable {d n : ℕ} {L : Fin d → ℕ}

theorem wave_add (r s K : Fin d → ℝ) : wave (fun k => r k + s k) K = wave r K * wave s K := by
  rw [wave, wave, wave, ← Complex.exp_add]
  congr 1
  rw [← mul_add, ← Complex.ofReal_add, ← Finset.sum_add_distrib]
  congr 3
  funext k
  ring

theorem wave_zero (K : Fin d → ℝ) : wave (fun _ => 0) K = 1 := by simp [wave]

theorem wave_ne (r K : Fin d → ℝ) : wave r K ≠ 0 := Complex.exp_ne_zero _

theorem wave_neg (r K : Fin d → ℝ) : wave (fun k => - r k) K = (wave r K)⁻¹ := by
  have h := wave_add r (fun k => - r k) K
  simp only [add_neg_cancel, wave_zero] at h
  exact eq_inv_of_mul_eq_one_right h.symm

theorem wave_nat (m : ℕ) (r K : Fin d → ℝ) : wave (fun k => m * r k) K = wave r K ^ m := by
  induction m with
  | zero => simp [wave_zero]
  | succ m ih =>
    rw [pow_succ, ← ih, ← wave_add]
    congr 1
    funext k
    push_cast
    ring

theorem wave_int (m : ℤ) (r K : Fin d → ℝ) : wave (fun k => m * r k) K = wave r K ^ m := by
  obtain ⟨m, rfl | rfl⟩ := m.eq_nat_or_neg
  · simpa using wave_nat m r K
  · rw [zpow_neg, zpow_natCast, ← wave_nat, ← wave_neg]
    congr 1
    funext k
    push_cast
    ring

theorem wave_sum {ι : Type} (s : Finset ι) (f : ι → Fin d → ℝ) (K : Fin d → ℝ) : wave (fun k => ∑ i ∈ s, f i k) K = ∏ i ∈ s, wave (f i) K := by
  classical
  induction s using Finset.induction with
  | empty => simp [wave_zero]
  | insert i s hi ih =>
    rw [Finset.prod_insert hi, ← ih, ← wave_add]
    congr 1
    funext k
    rw [Finset.sum_insert hi]

/-- The wave at a lattice vector. -/
theorem wave_cell (g : Geometry d n) (v : Fin d → ℤ) (K : Fin d → ℝ) : wave (fun k => ∑ i, v i * g.lat i k) K = ∏ i, wave (g.lat i) K ^ v i := by
  rw [wave_sum]
  exact Finset.prod_congr rfl fun i _ => wave_int _ _ _

theorem Geometry.Fits.pow {g : Geometry d n} {K : Fin d → ℝ} (h : g.Fits L K) (i : Fin d) : wave (g.lat i) K ^ (L i) = 1 := by
  rw [← wave_nat]; exact h i

/-- A wave that fits does not tell the images of a cell. -/
theorem Geometry.Fits.congr {g : Geometry d n} {K : Fin d → ℝ} (h : g.Fits L K) {v u : Fin d → ℤ} (hv : ∀ i, v i ≡ u i [ZMOD L i]) :
    wave (fun k => ∑ i, v i * g.lat i k) K = wave (fun k => ∑ i, u i * g.lat i k) K := by
  rw [wave_cell, wave_cell]
  refine Finset.prod_congr rfl fun i _ => ?_
  obtain ⟨m, hm⟩ := (hv i).dvd
  have : u i = v i + L i * m := by linarith
  rw [this, zpow_add₀ (wave_ne _ _), zpow_mul, zpow_natCast, h.pow, one_zpow, mul_one]

/-- **C67**: for waves that fit on the lattice the transform computed is the one explained in the code. -/
theorem C67_transform [∀ i, NeZero (L i)] [NeZero n] (g : Geometry d n) (data : Fin n → Fin n → (∀ i, Fin (L i)) → ℂ) (K : Fin d → ℝ) (h : g.Fits L K) :
    latFourier g data K = pairFourier g data K := by
  have key : ∀ a b (i : ∀ k, Fin (L k)), ∑ j : ∀ k, Fin (L k), data a b (j - i) * wave (fun k => g.pos b (cell j) k - g.pos a (cell i) k) K =
      ∑ c : ∀ k, Fin (L k), data a b c * Complex.exp (-Complex.I * ((∑ k, g.realVec c a b k * K k : ℝ) : ℂ)) := by
    intro a b i
    rw [← Equiv.sum_comp (Equiv.addRight i)]
    refine Finset.sum_congr rfl fun c _ => ?_
    simp only [Equiv.coe_addRight, add_sub_cancel_right]
    congr 1
    have e1 : (fun k => g.pos b (cell (c + i)) k - g.pos a (cell i) k) =
        fun k => ∑ l, ((cell (c + i) l - cell i l : ℤ) : ℝ) * g.lat l k + (g.sub b k - g.sub a k) := by
      funext k
      simp only [Geometry.pos]
      push_cast
      simp only [sub_mul, Finset.sum_sub_distrib]
      ring
    have e2 : Complex.exp (-Complex.I * ((∑ k, g.realVec c a b k * K k : ℝ) : ℂ)) =
        wave (fun k => ∑ l, ((cell c l : ℤ) : ℝ) * g.lat l k + (g.sub b k - g.sub a k)) K := by
      rw [wave]
      congr 3
      refine Finset.sum_congr rfl fun k _ => ?_
      congr 1
      simp only [Geometry.realVec, cell]
      rw [add_sub_assoc]
      congr 1
      exact Finset.sum_congr rfl fun l _ => by push_cast; ring
    rw [e1, e2, wave_add, wave_add, h.congr (u := cell c) (v := fun l => cell (c + i) l - cell i l)]
    intro l
    simp only [cell, Pi.add_apply, Fin.val_add]
    push_cast
    have : (((c l : ℕ) : ℤ) + ((i l : ℕ) : ℤ)) % (L l : ℤ) - ((i l : ℕ) : ℤ) ≡ (((c l : ℕ) : ℤ) + ((i l : ℕ) : ℤ)) - ((i l : ℕ) : ℤ) [ZMOD L l] :=
      (Int.mod_modEq _ _).sub_right _
    simpa using this
  rw [latFourier, pairFourier]
  simp only [key]
  have hV : ((∏ i, L i : ℕ) : ℂ) ≠ 0 := by
    rw [Nat.cast_ne_zero, Finset.prod_ne_zero_iff]
    exact fun i _ => NeZero.ne _
  have hn : (n : ℂ) ≠ 0 := Nat.cast_ne_zero.2 (NeZero.ne n)
  have hc : Fintype.card (∀ i, Fin (L i)) = ∏ i, L i := by simp
  simp only [Finset.sum_const, Finset.card_univ, hc, nsmul_eq_mul]
  rw [← Finset.mul_sum, mul_div_mul_left _ _ hV]
  congr 1
  exact Finset.sum_congr rfl fun a _ => Finset.sum_comm

/-- A momentum with integer coordinates, at a lattice vector. -/
theorem kvec_cell {g : Geometry d n} {rec : Fin d → Fin d → ℝ} {σ : Equiv.Perm (Fin d)} (h : ∀ i j, ∑ k, g.lat i k * rec j k = if j = σ i then 2 * Real.pi else 0)
    (L : Fin d → ℕ) (p v : Fin d → ℤ) : ∑ k, (∑ i, v i * g.lat i k) * kvec rec L p k = 2 * Real.pi * ∑ i, (p (σ i) * v i / L (σ i) : ℝ) := by
  have e : ∀ k, (∑ i, v i * g.lat i k) * kvec rec L p k = ∑ i, ∑ j, (v i * p j / L j : ℝ) * (g.lat i k * rec j k) := by
    intro k
    rw [kvec, Finset.sum_mul]
    refine Finset.sum_congr rfl fun i _ => ?_
    rw [Finset.mul_sum]
    exact Finset.sum_congr rfl fun j _ => by ring
  simp only [e]
  rw [Finset.sum_comm, Finset.mul_sum]
  refine Finset.sum_congr rfl fun i _ => ?_
  rw [Finset.sum_comm]
  simp only [← Finset.mul_sum, h]
  simp
  ring

theorem momenta_of {g : Geometry d n} {rec : Fin d → Fin d → ℝ} {σ : Equiv.Perm (Fin d)} (h : ∀ i j, ∑ k, g.lat i k * rec j k = if j = σ i then 2 * Real.pi else 0) :
    g.Momenta rec σ := fun L p v => kvec_cell h L p v

theorem root3_inv : (√3)⁻¹ = √3 / 3 := by
  have : √3 * √3 = (3 : ℝ) := Real.mul_self_sqrt (by norm_num)
  field_simp
  linarith

/-- **C67**: the momentum with integer coordinates `p` is the wave with `p i` periods along direction `i`. -/
theorem C67_momenta : chainGeo.Momenta chainRec 1 ∧ valenceGeo.Momenta valenceRec 1 ∧ squareGeo.Momenta squareRec 1 ∧ triangularGeo.Momenta triangularRec 1 ∧
    asymmetricGeo.Momenta asymmetricRec 1 ∧ honeycombGeo.Momenta honeycombRec 1 ∧ cubicGeo.Momenta cubicRec 1 ∧ checkerboard3Geo.Momenta checkerboard3Rec 1 := by
  refine ⟨momenta_of fun i j => ?_, momenta_of fun i j => ?_, momenta_of fun i j => ?_, momenta_of fun i j => ?_, momenta_of fun i j => ?_, momenta_of fun i j => ?_,
    momenta_of fun i j => ?_, momenta_of fun i j => ?_⟩
  · fin_cases i; fin_cases j; simp [chainGeo, chainRec]
  · fin_cases i <;> fin_cases j <;> simp [valenceGeo, valenceRec, Fin.sum_univ_two]
  · fin_cases i <;> fin_cases j <;> simp [squareGeo, squareRec, Fin.sum_univ_two]
  · fin_cases i <;> fin_cases j <;> simp [triangularGeo, triangularRec, Fin.sum_univ_two, div_eq_mul_inv, root3_inv] <;> ring_nf <;> norm_num <;> ring_nf
  · fin_cases i <;> fin_cases j <;> simp [asymmetricGeo, asymmetricRec, Fin.sum_univ_two, div_eq_mul_inv, root3_inv] <;> ring_nf <;> norm_num <;> ring_nf
  · fin_cases i <;> fin_cases j <;> simp [honeycombGeo, honeycombRec, Fin.sum_univ_two, div_eq_mul_inv, root3_inv] <;> ring_nf <;> norm_num <;> ring_nf
  · fin_cases i <;> fin_cases j <;> simp [cubicGeo, cubicRec, Fin.sum_univ_three]
  · fin_cases i <;> fin_cases j <;> simp [checkerboard3Geo, checkerboard3Rec, Fin.sum_univ_three] <;> ring

/-- **C67**, in part: the same with directions interchanged. The number of periods along direction `i` is the coordinate of another direction, divided by the size along that
direction: not an integer number of periods, if the sizes are different (`C67_refuted_checkerboard`). -/
theorem C67_momenta_partial : checkerboardGeo.Momenta checkerboardRec (Equiv.swap 0 1) ∧ kagomeGeo.Momenta kagomeRec (Equiv.swap 0 1) ∧
    pyrochloreGeo.Momenta pyrochloreRec (Equiv.subRight 1) := by
  refine ⟨momenta_of fun i j => ?_, momenta_of fun i j => ?_, momenta_of fun i j => ?_⟩
  · fin_cases i <;> fin_cases j <;> simp [checkerboardGeo, checkerboardRec, Fin.sum_univ_two] <;> ring
  · fin_cases i <;> fin_cases j <;> simp [kagomeGeo, kagomeRec, Fin.sum_univ_two, div_eq_mul_inv, root3_inv] <;> ring_nf <;> norm_num <;> ring_nf
  · have m2 : (2 : Fin 3) = -1 := by decide
    fin_cases i <;> fin_cases j <;> simp [pyrochloreGeo, pyrochloreRec, Fin.sum_univ_three, ← m2] <;> ring

theorem wave_kvec {g : Geometry d n} {rec : Fin d → Fin d → ℝ} {σ : Equiv.Perm (Fin d)} (h : g.Momenta rec σ) (L : Fin d → ℕ) (p : Fin d → ℤ) (i : Fin d) :
    wave (fun k => L i * g.lat i k) (kvec rec L p) = Complex.exp (-Complex.I * (2 * Real.pi * (p (σ i) * L i / L (σ i)) : ℝ)) := by
  have e := h L p (fun j => if j = i then (L i : ℤ) else 0)
  rw [wave]
  congr 3
  convert e using 1
  · refine Finset.sum_congr rfl fun k _ => ?_
    simp
  · rw [Finset.sum_eq_single i]
    · simp
    · intro j _ hj
      simp [hj]
    · simp

/-- **C67**: these waves fit on the lattice, if the sizes along interchanged directions are the same; so for the lattices of `C67_momenta` always. -/
theorem C67_fits {g : Geometry d n} {rec : Fin d → Fin d → ℝ} {σ : Equiv.Perm (Fin d)} (h : g.Momenta rec σ) (hL : ∀ i, L i ≠ 0) (hσ : ∀ i, L (σ i) = L i)
    (p : Fin d → ℤ) : g.Fits L (kvec rec L p) := by
  intro i
  rw [wave_kvec h, hσ, Complex.exp_eq_one_iff]
  refine ⟨-p (σ i), ?_⟩
  have : (L i : ℝ) ≠ 0 := by exact_mod_cast hL i
  rw [mul_div_assoc, div_self this]
  push_cast
  ring

/-- **C67**: the transform at a momentum with integer coordinates is the one explained in the code. -/
theorem C67_integer [∀ i, NeZero (L i)] [NeZero n] {g : Geometry d n} {rec : Fin d → Fin d → ℝ} (h : g.Momenta rec 1)
    (data : Fin n → Fin n → (∀ i, Fin (L i)) → ℂ) (p : Fin d → ℤ) : latFourier g data (kvec rec L p) = pairFourier g data (kvec rec L p) :=
  C67_transform g data _ (C67_fits h (fun _ => NeZero.ne _) (fun _ => rfl) p)

/-- With interchanged directions and different sizes a wave need not fit. -/
theorem not_fits {g : Geometry d n} {rec : Fin d → Fin d → ℝ} {σ : Equiv.Perm (Fin d)} (h : g.Momenta rec σ) (hL : ∀ i, L i ≠ 0) {p : Fin d → ℤ} {i : Fin d}
    (hd : ¬ (L (σ i) : ℤ) ∣ p (σ i) * L i) : ¬ g.Fits L (kvec rec L p) := by
  intro hf
  have := hf i
  rw [wave_kvec h, Complex.exp_eq_one_iff] at this
  obtain ⟨m, hm⟩ := this
  apply hd
  refine ⟨-m, ?_⟩
  have hL' : (L (σ i) : ℂ) ≠ 0 := by exact_mod_cast hL (σ i)
  have hpi : (Real.pi : ℂ) * Complex.I ≠ 0 := mul_ne_zero (by exact_mod_cast Real.pi_ne_zero) Complex.I_ne_zero
  push_cast at hm
  have h2 : (2 * (Real.pi * Complex.I)) * (p (σ i) * L i / L (σ i) + m) = 0 := by linear_combination -hm
  have h3 := (mul_eq_zero.1 h2).resolve_left (mul_ne_zero two_ne_zero hpi)
  have h4 : (p (σ i) * L i : ℂ) = L (σ i) * (-m) := by
    field_simp at h3
    linear_combination h3
  exact_mod_cast h4

/-- **C67** refuted for lattices of different sizes along the directions. -/
theorem C67_refuted : ¬ checkerboardGeo.Fits ![2, 3] (kvec checkerboardRec ![2, 3] ![1, 0]) ∧ ¬ kagomeGeo.Fits ![2, 3] (kvec kagomeRec ![2, 3] ![1, 0]) ∧
    ¬ pyrochloreGeo.Fits ![2, 3, 2] (kvec pyrochloreRec ![2, 3, 2] ![1, 0, 0]) := by
  obtain ⟨h1, h2, h3⟩ := C67_momenta_partial
  exact ⟨not_fits h1 (by decide) (i := 1) (by decide), not_fits h2 (by decide) (i := 1) (by decide), not_fits h3 (by decide) (i := 1) (by decide)⟩

/-- The hypotheses hold for a square lattice of three times four cells. -/
example : squareGeo.Fits ![3, 4] (kvec squareRec ![3, 4] ![1, 2]) ∧ (∀ i, (![3, 4] : Fin 2 → ℕ) i ≠ 0) :=
  ⟨C67_fits C67_momenta.2.2.1 (by decide) (fun _ => rfl) _, by decide⟩

/-! Staggered momentum. -/

theorem staggered {g : Geometry d n} (I : IntGeo g) (hσ : ∀ k, I.σ k = 1) (hw : ∀ k, I.w k = 1) {a b : Fin n} {v : Fin d → ℤ} (hq : I.q a b v = 1) :
    wave (g.disp a b v) (fun _ => Real.pi) = -1 := by
  have e : (∑ k, g.disp a b v k * Real.pi : ℝ) = (∑ k, I.D a b v k : ℤ) * Real.pi := by
    rw [← Finset.sum_mul]
    congr 1
    push_cast
    exact Finset.sum_congr rfl fun k _ => by rw [I.hD, hσ, one_mul]
  have hodd : Odd (∑ k, I.D a b v k) := by
    have h1 : Odd (∑ k, I.D a b v k ^ 2) := by
      have : ∑ k, I.D a b v k ^ 2 = 1 := by simpa [IntGeo.q, hw] using hq
      rw [this]; exact odd_one
    rw [← Int.not_even_iff_odd] at h1 ⊢
    intro hc
    apply h1
    have : Even (∑ k, (I.D a b v k ^ 2 - I.D a b v k)) := by
      refine Finset.even_sum _ fun k _ => ?_
      have := Int.even_mul_pred_self (I.D a b v k)
      have e : I.D a b v k ^ 2 - I.D a b v k = I.D a b v k * (I.D a b v k - 1) := by ring
      rwa [e]
    rw [Finset.sum_sub_distrib] at this
    simpa using this.add hc
  obtain ⟨m, hm⟩ := hodd
  rw [wave, e, hm]
  have : -Complex.I * (((2 * m + 1 : ℤ) * Real.pi : ℝ) : ℂ) = (-m : ℤ) * (2 * Real.pi * Complex.I) + -(Real.pi * Complex.I) := by push_cast; ring
  rw [this, Complex.exp_add, Complex.exp_int_mul_two_pi_mul_I, Complex.exp_neg, Complex.exp_pi_mul_I]
  norm_num

/-- **C67**: the momentum `(pi,...,pi)` at which the staggered susceptibility is measured has opposite signs at nearest neighbours. -/
theorem C67_staggered :
    (∀ a b v, chainGeo.neighbour 1 a b v → wave (chainGeo.disp a b v) (fun _ => Real.pi) = -1) ∧
    (∀ a b v, squareGeo.neighbour 1 a b v → wave (squareGeo.disp a b v) (fun _ => Real.pi) = -1) ∧
    (∀ a b v, checkerboardGeo.neighbour 1 a b v → wave (checkerboardGeo.disp a b v) (fun _ => Real.pi) = -1) ∧
    (∀ a b v, valenceGeo.neighbour 1 a b v → wave (valenceGeo.disp a b v) (fun _ => Real.pi) = -1) ∧
    (∀ a b v, cubicGeo.neighbour 1 a b v → wave (cubicGeo.disp a b v) (fun _ => Real.pi) = -1) ∧
    (∀ a b v, checkerboard3Geo.neighbour 1 a b v → wave (checkerboard3Geo.disp a b v) (fun _ => Real.pi) = -1) := by
  refine ⟨fun a b v h => ?_, fun a b v h => ?_, fun a b v h => ?_, fun a b v h => ?_, fun a b v h => ?_, fun a b v h => ?_⟩
  · exact staggered chainInt (by intro k; fin_cases k; rfl) (by intro k; fin_cases k; rfl) (by rw [chainInt_q]; exact chain_mem1 _ _ _ ((chain_shells.1 a b v).1 h))
  · exact staggered squareInt (by intro k; fin_cases k <;> rfl) (by intro k; fin_cases k <;> rfl) (by rw [squareInt_q]; exact square_mem1 _ _ _ ((square_shells.1 a b v).1 h))
  · exact staggered checkerboardInt (by intro k; fin_cases k <;> rfl) (by intro k; fin_cases k <;> rfl) (by rw [checkerboardInt_q]; exact checkerboard_mem1 _ _ _ ((checkerboard_shells.1 a b v).1 h))
  · exact staggered valenceInt (by intro k; fin_cases k <;> rfl) (by intro k; fin_cases k <;> rfl) (by rw [valenceInt_q]; exact valence_mem1 _ _ _ ((valence_shells.1 a b v).1 h))
  · exact staggered cubicInt (by intro k; fin_cases k <;> rfl) (by intro k; fin_cases k <;> rfl) (by rw [cubicInt_q]; exact cubic_mem1 _ _ _ ((cubic_shells.1 a b v).1 h))
  · exact staggered checkerboard3Int (by intro k; fin_cases k <;> rfl) (by intro k; fin_cases k <;> rfl) (by rw [checkerboard3Int_q]; exact checkerboard3_mem1 _ _ _ ((checkerboard3_shells.1 a b v).1 h))

/-- **C67** refuted for the triangular lattice with three sublattices, for which the same momentum is used. -/
theorem C67_refuted_staggered : asymmetricGeo.neighbour 1 0 1 0 ∧ wave (asymmetricGeo.disp 0 1 0) (fun _ => Real.pi) ≠ -1 := by
  refine ⟨(asymmetric_shells.1 0 1 0).2 (by decide), fun h => ?_⟩
  have e : (∑ k, asymmetricGeo.disp 0 1 0 k * Real.pi : ℝ) = (1 / 2 + √3 / 6) * Real.pi := by
    simp [Geometry.disp, asymmetricGeo, Fin.sum_univ_two, div_eq_mul_inv, root3_inv]
    ring
  have hc : Real.cos ((1 / 2 + √3 / 6) * Real.pi) = -1 := by
    have := congrArg Complex.re h
    rw [wave, e, show -Complex.I * (((1 / 2 + √3 / 6) * Real.pi : ℝ) : ℂ) = ((-((1 / 2 + √3 / 6) * Real.pi) : ℝ) : ℂ) * Complex.I by push_cast; ring,
      Complex.exp_ofReal_mul_I_re, Real.cos_neg] at this
    simpa using this
  have h3 : √3 < 2 := by rw [Real.sqrt_lt' (by norm_num)]; norm_num
  have h0 : 0 ≤ √3 := Real.sqrt_nonneg 3
  have := Real.strictAntiOn_cos (a := (1 / 2 + √3 / 6) * Real.pi) (b := Real.pi) ⟨by positivity, by nlinarith [Real.pi_pos]⟩ ⟨Real.pi_pos.le, le_rfl⟩
    (by nlinarith [Real.pi_pos])
  rw [Real.cos_pi, hc] at this
  exact lt_irrefl _ this

/-! Susceptibilities. -/

variable {N : ℕ} [NeZero N]

/-- **C68**: the uniform susceptibility is the integral over imaginary time (sum over the bins times their width) of the sum over all sites, per site of the cell. -/
theorem C68_uniform (g : Geometry d n) (beta : ℚ) (hb : beta ≠ 0) (hL : ∀ i, 0 < L i) (χ : Chi L N n) (f : Grid L N (Fin n → Fin n → ℂ))
    (h : χ.Shows ⟨beta, true, true⟩ Phase.complex f) :
    unifChi g beta χ = (∑ a, ∑ b, ∑ r, ∑ t, f r t a b * ((beta / N : ℚ) : ℂ)) / n := by
  have hN : 0 < N := Nat.pos_of_ne_zero (NeZero.ne N)
  obtain ⟨h1, h2, h3⟩ := C63_transform ⟨beta, true, true⟩ Phase.complex hN hL hb χ f h [.R, .W]
  unfold Plain.Shows at h1
  rw [h2, h3] at h1
  have hd : ∀ r a b, (χ.fft ⟨beta, true, true⟩ Phase.complex [.R, .W]).data r 0 a b = ∑ t, f r t a b := by
    intro r a b
    rw [h1]
    simp [after, Kind.view, matsubara, Kind.sigma, Phase.complex, Finset.sum_apply]
  rw [unifChi, latFourier]
  congr 1
  refine Finset.sum_congr rfl fun a _ => ?_
  rw [Finset.sum_comm]
  refine Finset.sum_congr rfl fun b _ => Finset.sum_congr rfl fun r _ => ?_
  simp only [mul_zero, Finset.sum_const_zero, Complex.ofReal_zero, Complex.exp_zero, mul_one]
  show (χ.fft ⟨beta, true, true⟩ Phase.complex [.R, .W]).data r 0 a b * _ = _
  rw [hd, Finset.sum_mul]

/-- What the staggered susceptibility is: the value of the first time bin times its width, in place of the integral over imaginary time. -/
theorem C68_staggered_partial (g : Geometry d n) (beta : ℚ) (hb : beta ≠ 0) (hL : ∀ i, 0 < L i) (χ : Chi L N n) (f : Grid L N (Fin n → Fin n → ℂ))
    (h : χ.Shows ⟨beta, true, true⟩ Phase.complex f) :
    stagChi g beta χ = latFourier g (fun a b r => f r 0 a b * ((beta / N : ℚ) : ℂ)) (fun _ => Real.pi) := by
  have hN : 0 < N := Nat.pos_of_ne_zero (NeZero.ne N)
  obtain ⟨h1, h2, h3⟩ := C63_transform ⟨beta, true, true⟩ Phase.complex hN hL hb χ f h [.R, .W]
  obtain ⟨g1, g2, g3⟩ := C63_transform ⟨beta, true, true⟩ Phase.complex hN hL hb _ f h1 [.R, .T]
  unfold Plain.Shows at g1
  rw [g2, g3, h2, h3] at g1
  rw [stagChi]
  congr 1
  funext a b r
  show (Plain.fft _ _ (Plain.fft _ _ χ _) _).data r 0 a b * _ = _
  rw [g1]
  simp [after, Kind.view]

/-- **C68** refuted: for a susceptibility that does not depend on imaginary time the integral is the inverse temperature times the value, and what is reported as staggered
susceptibility is smaller by the number of time bins. -/
theorem C68_refuted_staggered (g : Geometry d n) (beta : ℚ) (hb : beta ≠ 0) (hL : ∀ i, 0 < L i) (x : Fin n → Fin n → (∀ i, Fin (L i)) → ℂ) :
    let χ : Chi L N n := ⟨fun r _ a b => x a b r, false, false⟩
    latFourier g (fun a b r => ∑ t, χ.data r t a b * ((beta / N : ℚ) : ℂ)) (fun _ => Real.pi) = N * stagChi g beta χ := by
  intro χ
  rw [C68_staggered_partial g beta hb hL χ (fun r _ a b => x a b r) (Kind.view_false _ _ _).symm, latFourier, latFourier, ← mul_div_assoc, Finset.mul_sum]
  congr 1
  refine Finset.sum_congr rfl fun a _ => ?_
  rw [Finset.mul_sum]
  refine Finset.sum_congr rfl fun r _ => ?_
  rw [Finset.mul_sum]
  refine Finset.sum_congr rfl fun b _ => ?_
  simp [χ]
  ring

/-- A case: one site, two bins, inverse temperature one, and the constant function one. The uniform susceptibility is one; at the staggered momentum (which is the same for
one site) one half is reported. -/
example : unifChi (L := ![1]) (N := 2) chainGeo 1 ⟨fun _ _ _ _ => 1, false, false⟩ = 1 ∧
    stagChi (L := ![1]) (N := 2) chainGeo 1 ⟨fun _ _ _ _ => 1, false, false⟩ = 1 / 2 := by
  have hu : Fintype.card (∀ i : Fin 1, Fin ((![1] : Fin 1 → ℕ) i)) = 1 := by simp
  constructor
  · rw [C68_uniform (L := ![1]) (N := 2) chainGeo 1 (by norm_num) (by decide) ⟨fun _ _ _ _ => 1, false, false⟩ (fun _ _ _ _ => 1) (Kind.view_false _ _ _).symm]
    simp [Finset.card_univ, hu]
  · rw [C68_staggered_partial (L := ![1]) (N := 2) chainGeo 1 (by norm_num) (by decide) ⟨fun _ _ _ _ => 1, false, false⟩ (fun _ _ _ _ => 1) (Kind.view_false _ _ _).symm, latFourier]
    have h0 : ∀ (c : ∀ i : Fin 1, Fin ((![1] : Fin 1 → ℕ) i)) k, chainGeo.realVec c 0 0 k = 0 := by
      intro c k
      have h : ((c 0 : Fin _) : ℕ) = 0 := Nat.lt_one_iff.1 (c 0).isLt
      fin_cases k
      simp [Geometry.realVec, chainGeo, h]
    simp [h0, Finset.card_univ, hu]


end

end Feyn
