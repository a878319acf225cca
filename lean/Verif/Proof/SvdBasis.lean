import Verif.Spec.SvdBasis
import Mathlib.LinearAlgebra.Matrix.Trace
import Mathlib.LinearAlgebra.Matrix.NonsingularInverse
import Mathlib.Analysis.Matrix.Spectrum

/-!
# Best approximation by orthonormal rows (C98)
-/

namespace Feyn

open Matrix

/-- The weights of the singular values. -/
theorem weight_le_one {N n : ℕ} {P : Matrix (Fin N) (Fin n) ℝ} (hP : P * Pᵀ = 1) (j : Fin n) : ∑ k, P k j ^ 2 ≤ 1 := by
  set w := ∑ k, P k j ^ 2 with hw
  have h1 : (Pᵀ * P) j j = w := by
    simp only [mul_apply, transpose_apply, hw]
    exact Finset.sum_congr rfl fun k _ => (sq _).symm
  have h2 : (Pᵀ * P) * (Pᵀ * P) = Pᵀ * P := by
    rw [← Matrix.mul_assoc, Matrix.mul_assoc Pᵀ P Pᵀ, hP, Matrix.mul_one]
  have h3 : (Pᵀ * P)ᵀ = Pᵀ * P := by rw [transpose_mul, transpose_transpose]
  have h4 : w = ∑ i, ((Pᵀ * P) j i) ^ 2 := by
    rw [← h1]
    conv_lhs => rw [← h2]
    rw [mul_apply]
    refine Finset.sum_congr rfl fun i _ => ?_
    have h6 := congrFun (congrFun h3 j) i
    rw [transpose_apply] at h6
    rw [h6, sq]
  have h5 : w ^ 2 ≤ w := by
    conv_rhs => rw [h4]
    rw [← h1]
    exact Finset.single_le_sum (f := fun i => ((Pᵀ * P) j i) ^ 2) (fun i _ => sq_nonneg _) (Finset.mem_univ j)
  by_contra h
  nlinarith

theorem weight_sum {N n : ℕ} {P : Matrix (Fin N) (Fin n) ℝ} (hP : P * Pᵀ = 1) : ∑ j, ∑ k, P k j ^ 2 = N := by
  rw [Finset.sum_comm]
  have : ∀ k, ∑ j, P k j ^ 2 = 1 := fun k => by
    have := congrFun (congrFun hP k) k
    rw [mul_apply, one_apply_eq] at this
    rw [← this]
    exact Finset.sum_congr rfl fun j _ => by rw [transpose_apply, sq]
  simp [this]

theorem sum_first {N n : ℕ} (hN : N ≤ n) (σ : ℕ → ℝ) : ∑ j : Fin n, (if j.1 < N then σ j else 0) = ∑ k : Fin N, σ k := by
  rw [Fin.sum_univ_eq_sum_range (fun j => if j < N then σ j else 0) n, Fin.sum_univ_eq_sum_range σ N, ← Finset.sum_filter]
  congr 1
  ext j
  simp only [Finset.mem_filter, Finset.mem_range]
  omega

/-- Weights between zero and one with the sum `N` are best on the first `N` values. -/
theorem kyFan {N n : ℕ} (hN : N ≤ n) {σ : ℕ → ℝ} (hσ : Antitone σ) {w : Fin n → ℝ} (h0 : ∀ j, 0 ≤ w j) (h1 : ∀ j, w j ≤ 1) (hs : ∑ j, w j = N) :
    ∑ j : Fin n, σ j * w j ≤ ∑ k : Fin N, σ k := by
  rw [← sum_first hN σ]
  have key : ∑ j : Fin n, (σ j - σ (N - 1)) * (w j - if j.1 < N then 1 else 0) ≤ 0 := by
    refine Finset.sum_nonpos fun j _ => ?_
    split_ifs with h
    · exact mul_nonpos_of_nonneg_of_nonpos (sub_nonneg.2 (hσ (by omega))) (by linarith [h1 j])
    · exact mul_nonpos_of_nonpos_of_nonneg (sub_nonpos.2 (hσ (by omega))) (by linarith [h0 j])
  have e : ∑ j : Fin n, (σ j - σ (N - 1)) * (w j - if j.1 < N then 1 else 0) =
      ∑ j : Fin n, σ j * w j - ∑ j : Fin n, (if j.1 < N then σ j else 0) - σ (N - 1) * (∑ j, w j - ∑ j : Fin n, (if j.1 < N then (1 : ℝ) else 0)) := by
    rw [← Finset.sum_sub_distrib, ← Finset.sum_sub_distrib, Finset.mul_sum, ← Finset.sum_sub_distrib]
    refine Finset.sum_congr rfl fun j _ => ?_
    split_ifs <;> ring
  rw [hs, sum_first hN fun _ => (1 : ℝ)] at e
  simp at e
  linarith

/-- The error of an approximation by orthonormal rows. -/
theorem squareError_eq {M N n : ℕ} (K : Matrix (Fin M) (Fin n) ℝ) (A : Matrix (Fin M) (Fin N) ℝ) {Q : Matrix (Fin N) (Fin n) ℝ} (hQ : Q * Qᵀ = 1) :
    squareError K (A * Q) = trace (K * Kᵀ) - trace ((K * Qᵀ) * (K * Qᵀ)ᵀ) + trace ((A - K * Qᵀ) * (A - K * Qᵀ)ᵀ) := by
  have h : squareError K (A * Q) = trace ((K - A * Q) * (K - A * Q)ᵀ) := by
    simp only [squareError, trace, diag, mul_apply, transpose_apply, Matrix.sub_apply, sq]
  rw [h]
  have e1 : (K - A * Q) * (K - A * Q)ᵀ = K * Kᵀ - K * Qᵀ * Aᵀ - A * (K * Qᵀ)ᵀ + A * Aᵀ := by
    rw [transpose_sub, transpose_mul, Matrix.sub_mul, Matrix.mul_sub, Matrix.mul_sub, transpose_mul, transpose_transpose]
    have : A * Q * (Qᵀ * Aᵀ) = A * Aᵀ := by rw [Matrix.mul_assoc, ← Matrix.mul_assoc Q, hQ, Matrix.one_mul]
    rw [this, ← Matrix.mul_assoc, ← Matrix.mul_assoc]
    abel
  have e2 : (A - K * Qᵀ) * (A - K * Qᵀ)ᵀ = A * Aᵀ - A * (K * Qᵀ)ᵀ - K * Qᵀ * Aᵀ + K * Qᵀ * (K * Qᵀ)ᵀ := by
    rw [transpose_sub, Matrix.sub_mul, Matrix.mul_sub, Matrix.mul_sub]
    abel
  rw [e1, e2]
  simp only [trace_add, trace_sub]
  ring

theorem trace_self_nonneg {M N : ℕ} (A : Matrix (Fin M) (Fin N) ℝ) : 0 ≤ trace (A * Aᵀ) := by
  simp only [trace, diag, mul_apply, transpose_apply]
  exact Finset.sum_nonneg fun i _ => Finset.sum_nonneg fun j _ => mul_self_nonneg _

/-- Squares of the singular values, zero for those that do not exist. -/
noncomputable def sigma2 (M : ℕ) (s : ℕ → ℝ) (j : ℕ) : ℝ := if j < M then s j ^ 2 else 0

theorem sigma2_antitone (M : ℕ) {s : ℕ → ℝ} (hs : Antitone s) (h0 : ∀ j, 0 ≤ s j) : Antitone (sigma2 M s) := by
  intro a b hab
  unfold sigma2
  split_ifs with h1 h2 h2
  · exact pow_le_pow_left₀ (h0 b) (hs hab) 2
  · omega
  · positivity
  · exact le_rfl

theorem gram_svd {M n : ℕ} {K : Matrix (Fin M) (Fin n) ℝ} {v : Matrix (Fin n) (Fin n) ℝ} {s : ℕ → ℝ} (h : IsSvd K v s) :
    Kᵀ * K = vᵀ * diagonal (fun j : Fin n => sigma2 M s j) * v := by
  obtain ⟨-, -, -, u, hu, rfl⟩ := h
  set S : Matrix (Fin M) (Fin n) ℝ := Matrix.of fun i j => if i.1 = j.1 then s i.1 else 0 with hS
  have hSS : Sᵀ * S = diagonal (fun j : Fin n => sigma2 M s j) := by
    ext j j'
    rw [mul_apply, diagonal_apply]
    simp only [transpose_apply, hS, of_apply, sigma2]
    by_cases hj : j.1 < M
    · rw [Finset.sum_eq_single ⟨j.1, hj⟩]
      · by_cases he : j = j'
        · subst he
          simp [hj, sq]
        · have : j.1 ≠ j'.1 := fun h => he (Fin.ext h)
          simp [he, this]
      · intro i _ hi
        have : i.1 ≠ j.1 := fun h => hi (Fin.ext h)
        simp [this]
      · simp
    · rw [Finset.sum_eq_zero]
      · simp [hj]
      · intro i _
        have : i.1 ≠ j.1 := fun h => hj (h ▸ i.2)
        simp [this]
  calc (u * S * v)ᵀ * (u * S * v) = vᵀ * (Sᵀ * (uᵀ * u) * S) * v := by
        simp only [transpose_mul, Matrix.mul_assoc]
    _ = _ := by rw [hu, Matrix.mul_one, hSS]

/-- What an orthonormal family captures. -/
theorem captured {M N n : ℕ} {K : Matrix (Fin M) (Fin n) ℝ} {v : Matrix (Fin n) (Fin n) ℝ} {s : ℕ → ℝ} (h : IsSvd K v s) (Q : Matrix (Fin N) (Fin n) ℝ) :
    trace ((K * Qᵀ) * (K * Qᵀ)ᵀ) = ∑ j : Fin n, sigma2 M s j * ∑ k, (Q * vᵀ) k j ^ 2 := by
  rw [trace_mul_comm, transpose_mul, transpose_transpose]
  have e : Q * Kᵀ * (K * Qᵀ) = (Q * vᵀ) * diagonal (fun j : Fin n => sigma2 M s j) * (Q * vᵀ)ᵀ := by
    rw [transpose_mul, transpose_transpose]
    calc Q * Kᵀ * (K * Qᵀ) = Q * (Kᵀ * K) * Qᵀ := by simp only [Matrix.mul_assoc]
      _ = _ := by rw [gram_svd h]; simp only [Matrix.mul_assoc]
  rw [e]
  generalize Q * vᵀ = P
  simp only [trace, diag, mul_apply (M := P * _), mul_diagonal, transpose_apply, Finset.mul_sum]
  rw [Finset.sum_comm]
  exact Finset.sum_congr rfl fun j _ => Finset.sum_congr rfl fun k _ => by ring

/-- The first rows of the third factor. -/
def firstRows {n : ℕ} (v : Matrix (Fin n) (Fin n) ℝ) {N : ℕ} (hN : N ≤ n) : Matrix (Fin N) (Fin n) ℝ := fun k => v (Fin.castLE hN k)

theorem firstRows_orth {n : ℕ} {v : Matrix (Fin n) (Fin n) ℝ} (hv : v * vᵀ = 1) {N : ℕ} (hN : N ≤ n) : firstRows v hN * vᵀ = Matrix.of fun k j => if k.1 = j.1 then 1 else 0 := by
  ext k j
  have := congrFun (congrFun hv (Fin.castLE hN k)) j
  rw [mul_apply] at this ⊢
  rw [firstRows, this, one_apply, of_apply]
  simp [Fin.ext_iff]

theorem firstRows_self {n : ℕ} {v : Matrix (Fin n) (Fin n) ℝ} (hv : v * vᵀ = 1) {N : ℕ} (hN : N ≤ n) : firstRows v hN * (firstRows v hN)ᵀ = 1 := by
  ext k j
  have := congrFun (congrFun (firstRows_orth hv hN) k) (Fin.castLE hN j)
  rw [mul_apply] at this ⊢
  simp only [firstRows, transpose_apply, of_apply, Fin.val_castLE, one_apply, Fin.ext_iff] at this ⊢
  exact this

theorem captured_first {M n : ℕ} {K : Matrix (Fin M) (Fin n) ℝ} {v : Matrix (Fin n) (Fin n) ℝ} {s : ℕ → ℝ} (h : IsSvd K v s) {N : ℕ} (hN : N ≤ n) :
    trace ((K * (firstRows v hN)ᵀ) * (K * (firstRows v hN)ᵀ)ᵀ) = ∑ k : Fin N, sigma2 M s k := by
  rw [captured h, firstRows_orth h.1, ← sum_first hN]
  refine Finset.sum_congr rfl fun j _ => ?_
  simp only [of_apply]
  split_ifs with hj
  · rw [Finset.sum_eq_single ⟨j.1, hj⟩]
    · simp
    · intro k _ hk
      have : k.1 ≠ j.1 := fun h => hk (Fin.ext h)
      simp [this]
    · simp
  · rw [Finset.sum_eq_zero, mul_zero]
    intro k _
    have : k.1 ≠ j.1 := fun h => hj (h ▸ k.2)
    simp [this]

theorem orth_comp {N n : ℕ} {v : Matrix (Fin n) (Fin n) ℝ} (hv : v * vᵀ = 1) {Q : Matrix (Fin N) (Fin n) ℝ} (hQ : Q * Qᵀ = 1) : (Q * vᵀ) * (Q * vᵀ)ᵀ = 1 := by
  have hv' : vᵀ * v = 1 := mul_eq_one_comm.1 hv
  rw [transpose_mul, transpose_transpose]
  calc Q * vᵀ * (v * Qᵀ) = Q * (vᵀ * v) * Qᵀ := by simp only [Matrix.mul_assoc]
    _ = 1 := by rw [hv', Matrix.mul_one, hQ]

theorem error_first {M n : ℕ} {K : Matrix (Fin M) (Fin n) ℝ} {v : Matrix (Fin n) (Fin n) ℝ} {s : ℕ → ℝ} (h : IsSvd K v s) {N : ℕ} (hN : N ≤ n) :
    squareError K (K * (firstRows v hN)ᵀ * firstRows v hN) = trace (K * Kᵀ) - ∑ k : Fin N, sigma2 M s k := by
  rw [squareError_eq _ _ (firstRows_self h.1 hN), captured_first h hN, sub_self, Matrix.zero_mul, trace_zero, add_zero]

theorem error_ge {M n : ℕ} {K : Matrix (Fin M) (Fin n) ℝ} {v : Matrix (Fin n) (Fin n) ℝ} {s : ℕ → ℝ} (h : IsSvd K v s) {N : ℕ} (hN : N ≤ n)
    (A : Matrix (Fin M) (Fin N) ℝ) {Q : Matrix (Fin N) (Fin n) ℝ} (hQ : Q * Qᵀ = 1) :
    trace (K * Kᵀ) - ∑ k : Fin N, sigma2 M s k ≤ squareError K (A * Q) := by
  rw [squareError_eq _ _ hQ, captured h]
  have hP := orth_comp h.1 hQ
  have := kyFan hN (sigma2_antitone M h.2.1 h.2.2.1) (w := fun j => ∑ k, (Q * vᵀ) k j ^ 2) (fun j => Finset.sum_nonneg fun _ _ => sq_nonneg _) (weight_le_one hP) (weight_sum hP)
  have := trace_self_nonneg (A - K * Qᵀ)
  linarith

theorem trace_all {M n : ℕ} {K : Matrix (Fin M) (Fin n) ℝ} {v : Matrix (Fin n) (Fin n) ℝ} {s : ℕ → ℝ} (h : IsSvd K v s) : trace (K * Kᵀ) = ∑ j : Fin n, sigma2 M s j := by
  have hv' : vᵀ * v = 1 := mul_eq_one_comm.1 h.1
  have h2 := captured_first h le_rfl
  have e : firstRows v le_rfl = v := rfl
  rw [e, transpose_mul, transpose_transpose, Matrix.mul_assoc, ← Matrix.mul_assoc vᵀ, hv', Matrix.one_mul] at h2
  exact h2

/-! ## Existence of the decomposition -/

theorem euclid_inner {n : ℕ} (x y : EuclideanSpace ℝ (Fin n)) : inner ℝ x y = x.ofLp ⬝ᵥ y.ofLp := by
  rw [PiLp.inner_apply, dotProduct]
  exact Finset.sum_congr rfl fun i _ => by simp [mul_comm]

/-- Eigenvectors of the product with the transpose. -/
theorem gram_eigen {M n : ℕ} (K : Matrix (Fin M) (Fin n) ℝ) : ∃ (ev : Fin n → ℝ) (e : Fin n → Fin n → ℝ), Antitone ev ∧ (∀ i j, e i ⬝ᵥ e j = if i = j then 1 else 0) ∧
    ∀ j, (Kᵀ * K) *ᵥ e j = ev j • e j := by
  have hT : (toEuclideanLin (Kᵀ * K)).IsSymmetric := isSymmetric_toEuclideanLin_iff.mpr (by
    rw [IsHermitian, conjTranspose_eq_transpose_of_trivial, transpose_mul, transpose_transpose])
  have hn : Module.finrank ℝ (EuclideanSpace ℝ (Fin n)) = n := by simp
  refine ⟨hT.eigenvalues hn, fun j => (hT.eigenvectorBasis hn j).ofLp, hT.eigenvalues_antitone hn, fun i j => ?_, fun j => ?_⟩
  · rw [← euclid_inner]
    exact orthonormal_iff_ite.1 (hT.eigenvectorBasis hn).orthonormal i j
  · have := hT.apply_eigenvectorBasis hn j
    have h2 := congrArg WithLp.ofLp this
    exact h2

/-- Every matrix has a decomposition of the kind that `linalg.svd` promises. -/
theorem svd_exists {M n : ℕ} (K : Matrix (Fin M) (Fin n) ℝ) : ∃ v s, IsSvd K v s := by
  obtain ⟨ev, e, hanti, horth, heig⟩ := gram_eigen K
  have hg : ∀ i j, (K *ᵥ e i) ⬝ᵥ (K *ᵥ e j) = if i = j then ev j else 0 := fun i j => by
    rw [dotProduct_mulVec, vecMul_mulVec, ← dotProduct_mulVec, heig, dotProduct_smul, horth]
    split_ifs <;> simp
  have hnn : ∀ j, 0 ≤ ev j := fun j => by
    have := hg j j
    rw [if_pos rfl] at this
    rw [← this]
    exact Finset.sum_nonneg fun _ _ => mul_self_nonneg _
  have hzero : ∀ j, ev j = 0 → K *ᵥ e j = 0 := fun j h => by
    have := hg j j
    rw [if_pos rfl, h] at this
    exact dotProduct_self_eq_zero.1 this
  -- normalised images
  let f : Fin n → EuclideanSpace ℝ (Fin M) := fun j => WithLp.toLp 2 ((Real.sqrt (ev j))⁻¹ • (K *ᵥ e j))
  have hf : ∀ i j, ev i ≠ 0 → ev j ≠ 0 → inner ℝ (f i) (f j) = if i = j then (1 : ℝ) else 0 := fun i j hi hj => by
    rw [euclid_inner]
    simp only [f, smul_dotProduct, dotProduct_smul, hg, smul_eq_mul]
    split_ifs with h
    · subst h
      have := Real.mul_self_sqrt (hnn i)
      have h0 : Real.sqrt (ev i) ≠ 0 := fun h => hi (by rw [← this, h, mul_zero])
      field_simp
      rw [sq, this]
    · simp
  have hlt : ∀ j, ev j ≠ 0 → j.1 < M := fun j hj => by
    have hpos : ∀ i, i ≤ j → ev i ≠ 0 := fun i hi => by
      have := hanti hi
      have h2 := lt_of_le_of_ne (hnn j) (Ne.symm hj)
      linarith
    have ho : Orthonormal ℝ fun i : Fin (j.1 + 1) => f ⟨i.1, by omega⟩ := by
      rw [orthonormal_iff_ite]
      intro a b
      rw [hf _ _ (hpos _ (by rw [Fin.le_def]; dsimp only; omega)) (hpos _ (by rw [Fin.le_def]; dsimp only; omega))]
      simp [Fin.ext_iff]
    have := ho.linearIndependent.fintype_card_le_finrank
    simp at this
    omega
  let w : Fin M → EuclideanSpace ℝ (Fin M) := fun i => if h : i.1 < n then f ⟨i.1, h⟩ else 0
  let S : Set (Fin M) := {i | ∃ h : i.1 < n, ev ⟨i.1, h⟩ ≠ 0}
  obtain ⟨b, hb⟩ := Orthonormal.exists_orthonormalBasis_extension_of_card_eq (𝕜 := ℝ) (E := EuclideanSpace ℝ (Fin M)) (ι := Fin M) (by simp) (v := w) (s := S) (by
    rw [orthonormal_iff_ite]
    rintro ⟨i, hi, hi'⟩ ⟨j, hj, hj'⟩
    simp only [Set.domRestrict_apply, w, hi, hj, dif_pos]
    rw [hf _ _ hi' hj']
    simp [Fin.ext_iff])
  refine ⟨Matrix.of e, fun j => if h : j < n then Real.sqrt (ev ⟨j, h⟩) else 0, ?_, ?_, ?_, Matrix.of fun i j => (b j).ofLp i, ?_, ?_⟩
  · ext i j
    rw [mul_apply, one_apply, ← horth]
    rfl
  · intro i j hij
    dsimp only
    split_ifs with h1 h2 h2
    · exact Real.sqrt_le_sqrt (hanti hij)
    · omega
    · exact Real.sqrt_nonneg _
    · exact le_rfl
  · intro j
    dsimp only
    split_ifs
    · exact Real.sqrt_nonneg _
    · exact le_rfl
  · ext i j
    have := orthonormal_iff_ite.1 b.orthonormal i j
    rw [euclid_inner] at this
    rw [mul_apply, one_apply, ← this]
    rfl
  · have hv : (Matrix.of e) * (Matrix.of e)ᵀ = 1 := by
      ext i j
      rw [mul_apply, one_apply, ← horth]
      rfl
    have hv' : (Matrix.of e)ᵀ * (Matrix.of e) = 1 := mul_eq_one_comm.1 hv
    have key : K * (Matrix.of e)ᵀ = (Matrix.of fun i j => (b j).ofLp i) * (Matrix.of fun (i : Fin M) (j : Fin n) => if i.1 = j.1 then (if h : i.1 < n then Real.sqrt (ev ⟨i.1, h⟩) else 0) else 0) := by
      ext i j
      have hl : (K * (Matrix.of e)ᵀ) i j = (K *ᵥ e j) i := by
        rw [mul_apply, mulVec, dotProduct]
        rfl
      rw [hl, mul_apply]
      simp only [of_apply]
      by_cases h0 : ev j = 0
      · rw [hzero j h0, Finset.sum_eq_zero]
        · rfl
        · intro m _
          split_ifs with h1 h2
          · have : (⟨m.1, h2⟩ : Fin n) = j := Fin.ext h1
            rw [this, h0]
            simp
          · simp
          · simp
      · have hj := hlt j h0
        rw [Finset.sum_eq_single ⟨j.1, hj⟩]
        · have hmem : (⟨j.1, hj⟩ : Fin M) ∈ S := ⟨j.2, h0⟩
          rw [hb _ hmem]
          simp only [w, j.2, dif_pos, if_true, f, Pi.smul_apply, smul_eq_mul]
          have hs : Real.sqrt (ev j) ≠ 0 := fun h => h0 (by rw [← Real.mul_self_sqrt (hnn j), h, mul_zero])
          field_simp
        · intro m _ hm
          have : m.1 ≠ j.1 := fun h => hm (Fin.ext h)
          simp [this]
        · simp
    rw [← key, Matrix.mul_assoc, hv', Matrix.mul_one]

end Feyn
