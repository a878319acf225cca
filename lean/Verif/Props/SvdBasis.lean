import Verif.Proof.SvdBasis
import Mathlib.LinearAlgebra.Matrix.Notation

/-!
# The basis of functions of imaginary time (C98)
-/

namespace Feyn

open Matrix

/-! ## Kernels -/

theorem svd_arg1 {beta : ℝ} (hb : 0 < beta) (w t : ℝ) : -(beta * w / 2) * (2 * t / beta - 1 + 1) = -w * t := by
  field_simp
  ring

theorem svd_arg2 {beta : ℝ} (hb : 0 < beta) (w t : ℝ) : beta * w / 2 * (1 - (2 * t / beta - 1)) = beta * w + -w * t := by
  field_simp
  ring

theorem svd_arg3 {beta : ℝ} (hb : 0 < beta) (w t : ℝ) : -(beta * w / 2) * (2 * t / beta - 1) = beta * w / 2 + -w * t := by
  field_simp
  ring

theorem fermi_mid {beta : ℝ} (hb : 0 < beta) (w t : ℝ) :
    Real.exp (-(beta * w / 2) * (2 * t / beta - 1)) / (2 * Real.cosh (beta * w / 2)) = fermiLine w t beta := by
  have h : Real.exp (-beta * w) = Real.exp (-(beta * w / 2)) / Real.exp (beta * w / 2) := by
    rw [← Real.exp_sub]
    congr 1
    ring
  have hp := Real.exp_pos (beta * w / 2)
  have hm := Real.exp_pos (-(beta * w / 2))
  rw [svd_arg3 hb, Real.exp_add, Real.cosh_eq, fermiLine, h]
  field_simp

theorem bose_mid {beta : ℝ} (hb : 0 < beta) {w : ℝ} (hw : w ≠ 0) (t : ℝ) :
    w * Real.exp (-(beta * w / 2) * (2 * t / beta - 1)) / (2 * Real.sinh (beta * w / 2)) = boseLine w t beta := by
  have h : Real.exp (-beta * w) = Real.exp (-(beta * w / 2)) / Real.exp (beta * w / 2) := by
    rw [← Real.exp_sub]
    congr 1
    ring
  have hp := Real.exp_pos (beta * w / 2)
  have hne : Real.exp (beta * w / 2) - Real.exp (-(beta * w / 2)) ≠ 0 := by
    rw [sub_ne_zero]
    intro h
    have := Real.exp_injective h
    exact mul_ne_zero hb.ne' hw (by linarith)
  have hne2 : 1 - Real.exp (-(beta * w / 2)) / Real.exp (beta * w / 2) ≠ 0 := by
    rw [one_sub_div hp.ne']
    exact div_ne_zero hne hp.ne'
  rw [svd_arg3 hb, Real.exp_add, Real.sinh_eq, boseLine, h]
  rw [one_sub_div hp.ne']
  field_simp

/-- C98: the kernel for fermions is right to one part in e^200, for all frequencies and times. -/
theorem C98_fermi {beta : ℝ} (hb : 0 < beta) (w t : ℝ) :
    fermiLine w t beta ≤ svdFermi w t beta ∧ svdFermi w t beta ≤ (1 + Real.exp (-200)) * fermiLine w t beta := by
  have pos : 0 < fermiLine w t beta := by unfold fermiLine; positivity
  have e200 := Real.exp_pos (-200)
  simp only [svdFermi]
  split_ifs with h1 h2
  · rw [svd_arg1 hb]
    have hle : Real.exp (-beta * w) ≤ Real.exp (-200) := Real.exp_le_exp.2 (by linarith)
    have e : Real.exp (-w * t) = (1 + Real.exp (-beta * w)) * fermiLine w t beta := by
      unfold fermiLine
      field_simp
    rw [e]
    have := Real.exp_pos (-beta * w)
    constructor <;> nlinarith
  · rw [svd_arg2 hb]
    have hle : Real.exp (beta * w) ≤ Real.exp (-200) := Real.exp_le_exp.2 (by linarith)
    have e : Real.exp (beta * w + -w * t) = (1 + Real.exp (beta * w)) * fermiLine w t beta := by
      have h : Real.exp (-beta * w) = (Real.exp (beta * w))⁻¹ := by rw [← Real.exp_neg]; congr 1; ring
      have hp := Real.exp_pos (beta * w)
      unfold fermiLine
      rw [h, Real.exp_add]
      field_simp
      ring
    rw [e]
    have := Real.exp_pos (beta * w)
    constructor <;> nlinarith
  · rw [fermi_mid hb]
    constructor <;> nlinarith

theorem boseLine_pos {beta : ℝ} (hb : 0 < beta) {w : ℝ} (hw : w ≠ 0) (t : ℝ) : 0 < boseLine w t beta := by
  unfold boseLine
  rcases lt_or_gt_of_ne hw with h | h
  · have : 1 < Real.exp (-beta * w) := Real.one_lt_exp_iff.2 (by nlinarith)
    exact div_pos_of_neg_of_neg (mul_neg_of_neg_of_pos h (Real.exp_pos _)) (by linarith)
  · have : Real.exp (-beta * w) < 1 := Real.exp_lt_one_iff.2 (by nlinarith)
    exact div_pos (mul_pos h (Real.exp_pos _)) (by linarith)

/-- C98: the kernel for bosons is right to one part in e^400. -/
theorem C98_bose {beta : ℝ} (hb : 0 < beta) {w : ℝ} (hw : w ≠ 0) (t : ℝ) :
    (1 - Real.exp (-400)) * boseLine w t beta ≤ svdBose w t beta ∧ svdBose w t beta ≤ boseLine w t beta := by
  have pos := boseLine_pos hb hw t
  have e400 := Real.exp_pos (-400)
  simp only [svdBose]
  split_ifs with h1 h2
  · rw [svd_arg1 hb]
    have hle : Real.exp (-beta * w) ≤ Real.exp (-400) := Real.exp_le_exp.2 (by linarith)
    have hlt : Real.exp (-beta * w) < 1 := Real.exp_lt_one_iff.2 (by linarith)
    have e : w * Real.exp (-w * t) = (1 - Real.exp (-beta * w)) * boseLine w t beta := by
      have : 1 - Real.exp (-beta * w) ≠ 0 := by linarith
      unfold boseLine
      generalize Real.exp (-beta * w) = E at this
      field_simp
    rw [e]
    have := Real.exp_pos (-beta * w)
    constructor <;> nlinarith
  · rw [svd_arg2 hb]
    have hle : Real.exp (beta * w) ≤ Real.exp (-400) := Real.exp_le_exp.2 (by linarith)
    have hlt : Real.exp (beta * w) < 1 := Real.exp_lt_one_iff.2 (by linarith)
    have e : -w * Real.exp (beta * w + -w * t) = (1 - Real.exp (beta * w)) * boseLine w t beta := by
      have h : Real.exp (-beta * w) = (Real.exp (beta * w))⁻¹ := by rw [← Real.exp_neg]; congr 1; ring
      have hp := Real.exp_pos (beta * w)
      have hne : Real.exp (beta * w) - 1 ≠ 0 := by linarith
      have e1 : 1 - (Real.exp (beta * w))⁻¹ = (Real.exp (beta * w) - 1) / Real.exp (beta * w) := by field_simp
      unfold boseLine
      rw [h, Real.exp_add, e1]
      clear h e1
      generalize Real.exp (beta * w) = E at hp hne
      field_simp
      ring
    rw [e]
    have := Real.exp_pos (beta * w)
    constructor <;> nlinarith
  · rw [bose_mid hb hw]
    constructor <;> nlinarith

/-- C98: both are the same for the other sign of the frequency and the time counted from the end. -/
theorem C98_reflect {beta : ℝ} (hb : 0 < beta) (w t : ℝ) :
    svdFermi (-w) (beta - t) beta = svdFermi w t beta ∧ svdBose (-w) (beta - t) beta = svdBose w t beta := by
  have hx : beta * -w / 2 = -(beta * w / 2) := by ring
  have hy : 2 * (beta - t) / beta - 1 = -(2 * t / beta - 1) := by field_simp; ring
  simp only [svdFermi, svdBose, hx, hy]
  generalize beta * w / 2 = x
  generalize 2 * t / beta - 1 = y
  constructor
  · rcases lt_or_ge 100 x with h | h
    · rw [if_neg (by linarith), if_pos (by linarith), if_pos h]
      congr 1
      ring
    · rcases lt_or_ge x (-100) with h' | h'
      · rw [if_pos (by linarith), if_neg (by linarith), if_pos h']
        congr 1
        ring
      · rw [if_neg (by linarith), if_neg (by linarith), if_neg (by linarith), if_neg (by linarith), Real.cosh_neg]
        congr 2
        ring
  · rcases lt_or_ge 200 x with h | h
    · rw [if_neg (by linarith), if_pos (by linarith), if_pos h, neg_neg]
      congr 2
      ring
    · rcases lt_or_ge x (-200) with h' | h'
      · rw [if_pos (by linarith), if_neg (by linarith), if_pos h']
        congr 2
        ring
      · rw [if_neg (by linarith), if_neg (by linarith), if_neg (by linarith), if_neg (by linarith), Real.sinh_neg]
        have : - -x * -y = -x * y := by ring
        rw [this, mul_neg, neg_mul, neg_div_neg_eq]

/-! ## Frequencies and times -/

/-- C98: no frequency is zero, where the kernel for bosons has no value; they are in pairs of both signs. -/
theorem C98_frequencies (i : ℕ) (hi : i ≤ 999) : basisFreq i ≠ 0 ∧ basisFreq (999 - i) = -basisFreq i ∧ |basisFreq i| ≤ 100 := by
  have hr : (i : ℝ) ≤ 999 := by exact_mod_cast hi
  have h0 : (0 : ℝ) ≤ i := by positivity
  refine ⟨fun h => ?_, ?_, ?_⟩
  · simp only [basisFreq, linspace] at h
    have h2 : (2 * i : ℝ) = 999 := by
      norm_num at h
      linarith
    have : 2 * i = 999 := by exact_mod_cast h2
    omega
  · simp only [basisFreq, linspace]
    push_cast [Nat.cast_sub hi]
    norm_num
    ring
  · simp only [basisFreq, linspace]
    rw [abs_le]
    norm_num
    linarith

theorem basisTime_eq (beta : ℝ) (bins l : ℕ) : basisTime beta bins l = l * (beta / bins) + 1 / 2 / bins := by
  simp only [basisTime, linspace]
  push_cast
  rw [zero_add, sub_zero, add_sub_cancel_right]
  ring

/-- C98: the times are the middles of the bins at the temperature one. -/
theorem C98_times_partial (bins l : ℕ) : basisTime 1 bins l = binMiddle 1 bins l := by
  rw [basisTime_eq, binMiddle]
  ring

/-- **C98** refuted for all other temperatures: no time is the middle of its bin. -/
theorem C98_refuted_times {beta : ℝ} (hb : beta ≠ 1) {bins : ℕ} (hn : 0 < bins) (l : ℕ) : basisTime beta bins l ≠ binMiddle beta bins l := by
  have hr : (0 : ℝ) < bins := by exact_mod_cast hn
  intro h
  rw [basisTime_eq, binMiddle] at h
  apply hb
  field_simp at h
  linarith

/-- At high temperatures the last one is not even between zero and `beta`. -/
theorem C98_refuted_range {beta : ℝ} (h2 : beta < 1 / 2) {bins : ℕ} (hn : 0 < bins) : beta < basisTime beta bins (bins - 1) := by
  have hr : (0 : ℝ) < bins := by exact_mod_cast hn
  rw [basisTime_eq]
  push_cast [Nat.cast_sub (show 1 ≤ bins from hn)]
  rw [← sub_pos]
  have : ((bins : ℝ) - 1) * (beta / bins) + 1 / 2 / bins - beta = (1 / 2 - beta) / bins := by
    field_simp
    ring
  rw [this]
  exact div_pos (by linarith) hr

/-- At temperatures below two each time is in its bin. -/
theorem C98_bins {beta : ℝ} (hb : 1 / 2 < beta) {bins : ℕ} (hn : 0 < bins) (l : ℕ) : l * (beta / bins) < basisTime beta bins l ∧ basisTime beta bins l < (l + 1) * (beta / bins) := by
  have hr : (0 : ℝ) < bins := by exact_mod_cast hn
  rw [basisTime_eq]
  refine ⟨by linarith [div_pos (show (0 : ℝ) < 1 / 2 by norm_num) hr], ?_⟩
  rw [add_mul, one_mul]
  have := div_lt_div_of_pos_right hb hr
  linarith

/-- C98: at the temperature one the matrix is symmetric under the exchange of the directions of time and the signs of the frequencies. -/
theorem C98_symmetric_partial (kind : String) {bins : ℕ} (i : Fin 1000) (l : Fin bins) : kernelMatrix kind 1 bins i.rev l.rev = kernelMatrix kind 1 bins i l := by
  have hn : (0 : ℝ) < bins := by exact_mod_cast l.pos
  have hi : basisFreq i.rev = -basisFreq i := by
    have := (C98_frequencies i.1 (by omega)).2.1
    rw [Fin.val_rev]
    rw [← this]
    congr 1
    omega
  have hl : basisTime 1 bins l.rev = 1 - basisTime 1 bins l := by
    rw [C98_times_partial, C98_times_partial, binMiddle, binMiddle, Fin.val_rev]
    push_cast [Nat.cast_sub (show l.1 + 1 ≤ bins from l.2)]
    field_simp
    ring
  have h := C98_reflect one_pos (basisFreq i) (basisTime 1 bins l)
  simp only [kernelMatrix, hi, hl, h.1, h.2]

theorem svd_time {beta : ℝ} (hb : 0 < beta) (w t : ℝ) :
    svdFermi w t beta = svdFermi w 0 beta * Real.exp (-w * t) ∧ svdBose w t beta = svdBose w 0 beta * Real.exp (-w * t) := by
  simp only [svdFermi, svdBose, svd_arg1 hb, svd_arg2 hb, svd_arg3 hb]
  simp only [mul_zero, add_zero, Real.exp_add, Real.exp_zero]
  constructor <;> split_ifs <;> ring

theorem svd_ne {beta : ℝ} (hb : 0 < beta) {w : ℝ} (hw : w ≠ 0) : svdFermi w 0 beta ≠ 0 ∧ svdBose w 0 beta ≠ 0 := by
  constructor
  · have := (C98_fermi hb w 0).1
    have : 0 < fermiLine w 0 beta := by unfold fermiLine; positivity
    linarith
  · have := (C98_bose hb hw 0).1
    have h2 := boseLine_pos hb hw 0
    have : Real.exp (-400) < 1 := Real.exp_lt_one_iff.2 (by norm_num)
    nlinarith

/-- **C98** refuted for the symmetry at all other temperatures, in every element. -/
theorem C98_refuted_symmetric {kind : String} (hk : kind = "Fermi" ∨ kind = "Bose") {beta : ℝ} (hb : 0 < beta) (h1 : beta ≠ 1) {bins : ℕ} (i : Fin 1000) (l : Fin bins) :
    kernelMatrix kind beta bins i.rev l.rev ≠ kernelMatrix kind beta bins i l := by
  have hn : (0 : ℝ) < bins := by exact_mod_cast l.pos
  have hf := C98_frequencies i.1 (by omega)
  have hi : basisFreq i.rev = -basisFreq i := by
    rw [Fin.val_rev, ← hf.2.1]
    congr 1
    omega
  set w := basisFreq i with hw
  have ht : beta - basisTime beta bins l.rev ≠ basisTime beta bins l := by
    intro h
    rw [basisTime_eq, basisTime_eq, Fin.val_rev] at h
    push_cast [Nat.cast_sub (show l.1 + 1 ≤ bins from l.2)] at h
    apply h1
    field_simp at h
    linarith
  have hr : ∀ t, svdFermi (-w) t beta = svdFermi w (beta - t) beta ∧ svdBose (-w) t beta = svdBose w (beta - t) beta := fun t => by
    have := C98_reflect hb w (beta - t)
    rwa [sub_sub_cancel] at this
  have hexp : Real.exp (-w * (beta - basisTime beta bins l.rev)) ≠ Real.exp (-w * basisTime beta bins l) := fun h =>
    ht (mul_left_cancel₀ (neg_ne_zero.2 hf.1) (Real.exp_injective h))
  have hne := svd_ne hb hf.1
  rcases hk with rfl | rfl
  · simp only [kernelMatrix, if_true, hi, ← hw, (hr _).1]
    rw [(svd_time hb w (beta - _)).1, (svd_time hb w (basisTime beta bins l)).1]
    exact fun h => hexp (mul_left_cancel₀ hne.1 h)
  · have : ("Bose" : String) ≠ "Fermi" := by decide
    simp only [kernelMatrix, if_neg this, if_true, hi, ← hw, (hr _).2]
    rw [(svd_time hb w (beta - _)).2, (svd_time hb w (basisTime beta bins l)).2]
    exact fun h => hexp (mul_left_cancel₀ hne.2 h)

/-! ## The basis -/

theorem mapM_range_some {α : Type} (f : ℕ → Option α) (g : ℕ → α) (N : ℕ) (h : ∀ i < N, f i = some (g i)) : (List.range N).mapM f = some ((List.range N).map g) := by
  have : ∀ l : List ℕ, (∀ i ∈ l, i < N) → l.mapM f = some (l.map g) := fun l => by
    induction l with
    | nil => intro _; rfl
    | cons a l ih =>
      intro hl
      rw [List.mapM_cons, h a (hl a (by simp)), ih fun i hi => hl i (List.mem_cons_of_mem _ hi)]
      rfl
  exact this _ fun i hi => List.mem_range.1 hi

/-- C98: the basis has as many functions as asked for if there are bins enough, otherwise there is an exception; they are the first rows of the third factor. -/
theorem C98_basis {bins : ℕ} {inv : Matrix (Fin bins) (Fin bins) ℝ → Matrix (Fin bins) (Fin bins) ℝ} (hinv : IsInv inv) {v : Matrix (Fin bins) (Fin bins) ℝ} (hv : v * vᵀ = 1)
    (N : ℕ) : (∃ basis, generateBasis inv v N = some basis ∧ basis.length = N ∧ ∀ k : Fin basis.length, ∃ h : k.1 < bins, basis.get k = v ⟨k, h⟩) ↔ N ≤ bins := by
  have hi : inv v = vᵀ := by
    have h1 := hinv v _ hv
    have h2 : vᵀ * v = 1 := mul_eq_one_comm.1 hv
    calc inv v = vᵀ * v * inv v := by rw [h2, Matrix.one_mul]
      _ = vᵀ := by rw [Matrix.mul_assoc, h1, Matrix.mul_one]
  constructor
  · rintro ⟨basis, -, hl, h⟩
    by_contra hc
    obtain ⟨h, -⟩ := h ⟨bins, by omega⟩
    exact lt_irrefl _ h
  · intro hN
    refine ⟨_, mapM_range_some _ (fun i l => if h : i < bins then v ⟨i, h⟩ l else 0) N fun i h => ?_, by simp, fun k => ?_⟩
    · simp only [show i < bins by omega, dif_pos, hi, transpose_apply]
    · have hk : k.1 < N := by simpa using k.2
      refine ⟨by omega, ?_⟩
      ext l
      simp [show k.1 < bins by omega]

theorem basis_rows {bins : ℕ} {inv : Matrix (Fin bins) (Fin bins) ℝ → Matrix (Fin bins) (Fin bins) ℝ} (hinv : IsInv inv) {v : Matrix (Fin bins) (Fin bins) ℝ} (hv : v * vᵀ = 1)
    {N : ℕ} {basis : List (Fin bins → ℝ)} (h : generateBasis inv v N = some basis) : basis.length = N ∧ ∃ hN : basis.length ≤ bins, basisVec basis = firstRows v hN := by
  by_cases hN : N ≤ bins
  · obtain ⟨b, h1, h2, h3⟩ := (C98_basis hinv hv N).2 hN
    rw [h, Option.some.injEq] at h1
    subst h1
    refine ⟨h2, by omega, ?_⟩
    ext k l
    obtain ⟨hk, e⟩ := h3 k
    rw [basisVec, e]
    rfl
  · exfalso
    have hnone : ∀ l : List ℕ, bins ∈ l → (l.mapM fun i => if h : i < bins then some fun l => inv v l ⟨i, h⟩ else none) = none := fun l => by
      induction l with
      | nil => simp
      | cons a l ih =>
        intro hm
        rw [List.mapM_cons]
        rcases List.mem_cons.1 hm with rfl | hm
        · simp
        · rw [ih hm]
          split_ifs <;> rfl
    rw [generateBasis, hnone _ (List.mem_range.2 (by omega))] at h
    cases h

/-- C98: for any results of `svd` and `inv` that these promise: the functions of the basis are orthonormal, the matrix of the kernel is represented by them up to the singular values left out,
and no other orthonormal functions of the same number, with any coefficients, represent it better. -/
theorem C98_best {kind : String} {beta : ℝ} {bins : ℕ} {inv : Matrix (Fin bins) (Fin bins) ℝ → Matrix (Fin bins) (Fin bins) ℝ} (hinv : IsInv inv)
    {v : Matrix (Fin bins) (Fin bins) ℝ} {s : ℕ → ℝ} (hs : IsSvd (kernelMatrix kind beta bins) v s) {N : ℕ} {basis : List (Fin bins → ℝ)} (h : generateBasis inv v N = some basis) :
    basis.length = N ∧ basisVec basis * (basisVec basis)ᵀ = 1 ∧
    squareError (kernelMatrix kind beta bins) (kernelMatrix kind beta bins * (basisVec basis)ᵀ * basisVec basis) =
      (∑ j : Fin bins, if N ≤ j.1 ∧ j.1 < 1000 then s j ^ 2 else 0) ∧
    ∀ (A : Matrix (Fin 1000) (Fin basis.length) ℝ) (Q : Matrix (Fin basis.length) (Fin bins) ℝ), Q * Qᵀ = 1 →
      squareError (kernelMatrix kind beta bins) (kernelMatrix kind beta bins * (basisVec basis)ᵀ * basisVec basis) ≤ squareError (kernelMatrix kind beta bins) (A * Q) := by
  obtain ⟨hl, hN, e⟩ := basis_rows hinv hs.1 h
  refine ⟨hl, ?_, ?_, fun A Q hQ => ?_⟩
  · rw [e]
    exact firstRows_self hs.1 hN
  · rw [e, error_first hs hN, trace_all hs, ← sum_first hN, ← Finset.sum_sub_distrib]
    refine Finset.sum_congr rfl fun j _ => ?_
    rw [← hl, sigma2]
    by_cases h1 : j.1 < basis.length <;> by_cases h2 : j.1 < 1000 <;> simp [h1, h2]
  · rw [e, error_first hs hN]
    exact error_ge hs hN A hQ

/-- There are results of `svd` and `inv` with these properties for every kernel, temperature and number of bins, and a basis of any number of functions up to the number of bins. -/
theorem C98_exists (kind : String) (beta : ℝ) {bins N : ℕ} (hN : N ≤ bins) :
    ∃ inv v s basis, IsInv (n := bins) inv ∧ IsSvd (kernelMatrix kind beta bins) v s ∧ generateBasis inv v N = some basis := by
  obtain ⟨v, s, h⟩ := svd_exists (kernelMatrix kind beta bins)
  have hinv : IsInv fun a : Matrix (Fin bins) (Fin bins) ℝ => a⁻¹ := fun a b h => mul_nonsing_inv a (isUnit_iff_exists_inv.2 ⟨b.det, by rw [← det_mul, h, det_one]⟩)
  obtain ⟨basis, hb, -⟩ := (C98_basis hinv h.1 N).2 hN
  exact ⟨_, v, s, basis, hinv, h, hb⟩

/-- C98 fails in this form: a kind that is neither "Fermi" nor "Bose" is accepted, and then every orthogonal matrix is a valid result of `svd`, so that the functions have nothing to do with a kernel. -/
theorem C98_refuted_kind {kind : String} (h : kind ≠ "Fermi" ∧ kind ≠ "Bose") (beta : ℝ) {bins : ℕ} {v : Matrix (Fin bins) (Fin bins) ℝ} (hv : v * vᵀ = 1) :
    IsSvd (kernelMatrix kind beta bins) v fun _ => 0 := by
  refine ⟨hv, fun _ _ _ => le_rfl, fun _ => le_rfl, 1, by simp, ?_⟩
  have hz : (Matrix.of fun (i : Fin 1000) (j : Fin bins) => if i.1 = j.1 then (0 : ℝ) else 0) = 0 := by
    ext i j
    simp
  rw [hz]
  ext i l
  simp [kernelMatrix, h.1, h.2]

/-! ## Coefficients -/

theorem orth_sum {n bins : ℕ} {B : Matrix (Fin n) (Fin bins) ℝ} (hB : B * Bᵀ = 1) (k l : Fin n) : ∑ m, (B k m : ℂ) * (B l m : ℂ) = if k = l then 1 else 0 := by
  have := congrFun (congrFun hB k) l
  rw [mul_apply, one_apply] at this
  simp only [transpose_apply] at this
  have h2 := congrArg (fun x : ℝ => (x : ℂ)) this
  simp only [Complex.ofReal_sum, Complex.ofReal_mul] at h2
  rw [h2]
  split_ifs <;> simp

theorem fit_one {n bins : ℕ} {B : Matrix (Fin n) (Fin bins) ℝ} (hB : B * Bᵀ = 1) (c : Fin n → ℂ) (k : Fin n) : ∑ m, (∑ k', c k' * (B k' m : ℂ)) * (B k m : ℂ) = c k := by
  simp only [Finset.sum_mul]
  rw [Finset.sum_comm]
  simp only [mul_assoc, ← Finset.mul_sum, orth_sum hB]
  simp

/-- C98: the coefficients of a function that has been restored from coefficients are these, for any number of functions. -/
theorem C98_fit_restore {n bins : ℕ} {B : Matrix (Fin n) (Fin bins) ℝ} (hB : B * Bᵀ = 1) (c : Fin n → Fin n → ℂ) : fitGamma B (restoreGamma B c) = c := by
  funext k l
  simp only [fitGamma, restoreGamma]
  have h1 : ∀ s, ∑ m, (∑ l', (∑ k', c k' l' * (B k' m : ℂ)) * (B l' s : ℂ)) * (B k m : ℂ) = ∑ l', c k l' * (B l' s : ℂ) := fun s => by
    simp only [Finset.sum_mul (s := Finset.univ (α := Fin n)) (f := fun l' => (∑ k', c k' l' * (B k' _ : ℂ)) * (B l' s : ℂ))]
    rw [Finset.sum_comm]
    refine Finset.sum_congr rfl fun l' _ => ?_
    rw [← fit_one hB (fun k' => c k' l') k, Finset.sum_mul]
    exact Finset.sum_congr rfl fun m _ => by ring
  simp only [h1]
  exact fit_one hB (fun l' => c k l') l

/-- C98: with as many functions as bins every function of two times comes back. -/
theorem C98_restore_fit {bins : ℕ} {B : Matrix (Fin bins) (Fin bins) ℝ} (hB : B * Bᵀ = 1) (f : Fin bins → Fin bins → ℂ) : restoreGamma B (fitGamma B f) = f := by
  have hB' : Bᵀ * Bᵀᵀ = 1 := by rw [transpose_transpose]; exact mul_eq_one_comm.1 hB
  have h := C98_fit_restore hB' f
  funext m s
  have := congrFun (congrFun h m) s
  rw [← this]
  simp only [restoreGamma, fitGamma, transpose_apply]

/-- C98: restoring on fewer bins works if and only if their number divides the number of bins, and then gives the values of the restored function at the beginnings. -/
theorem C98_coarse {n bins : ℕ} (hb : 0 < bins) (B : Matrix (Fin n) (Fin bins) ℝ) (c : Fin n → Fin n → ℂ) (tauBin : ℕ) :
    ((restoreCoarse B tauBin c).isSome ↔ tauBin ∣ bins) ∧
    ∀ g, restoreCoarse B tauBin c = some g → ∀ m s : Fin tauBin, ∃ (hm : m.1 * (bins / tauBin) < bins) (hs : s.1 * (bins / tauBin) < bins),
      g m s = restoreGamma B c ⟨_, hm⟩ ⟨_, hs⟩ := by
  have key : tauBin ≠ 0 → bins / tauBin ≠ 0 → (sliceLength bins (bins / tauBin) = tauBin ↔ tauBin ∣ bins) := fun h0 h1 => by
    set q := bins / tauBin with hq
    have hle : q * tauBin ≤ bins := Nat.div_mul_le_self bins tauBin
    unfold sliceLength
    constructor
    · intro h
      have h2 : bins + q - 1 < q * (tauBin + 1) := by
        rw [← h]
        have := Nat.lt_mul_div_succ (bins + q - 1) (Nat.pos_of_ne_zero h1)
        exact this
      rw [Nat.mul_add] at h2
      exact ⟨q, by rw [Nat.mul_comm]; omega⟩
    · rintro ⟨r, hr⟩
      have : q = r := by rw [hq, hr]; exact Nat.mul_div_cancel_left r (Nat.pos_of_ne_zero h0)
      subst this
      have hq0 : 0 < q := Nat.pos_of_ne_zero h1
      rw [hr, Nat.add_sub_assoc hq0, Nat.add_comm, Nat.add_mul_div_right _ _ hq0, Nat.div_eq_of_lt (by omega), Nat.zero_add]
  constructor
  · unfold restoreCoarse
    split_ifs with h0 h1 h2
    · subst h0
      simp
      omega
    · simp only [Option.isSome_none, Bool.false_eq_true, false_iff]
      intro hd
      have := Nat.div_pos (Nat.le_of_dvd hb hd) (Nat.pos_of_ne_zero h0)
      omega
    · simp only [Option.isSome_some, true_iff]
      exact (key h0 h1).1 h2
    · simp only [Option.isSome_none, Bool.false_eq_true, false_iff]
      exact fun hd => h2 ((key h0 h1).2 hd)
  · intro g hg m s
    unfold restoreCoarse at hg
    split_ifs at hg with h0 h1 h2
    simp only [Option.some.injEq] at hg
    subst hg
    exact ⟨slice_lt h1 (h2.symm ▸ m.2), slice_lt h1 (h2.symm ▸ s.2), rfl⟩

/-! ## Examples -/

/-- The temperature of the script: the first time is 1/256, the middle of the bin is 0.8/256. -/
example : basisTime (4 / 5) 128 0 = 1 / 256 ∧ binMiddle (4 / 5) 128 0 = 4 / 5 / 256 := by
  rw [basisTime_eq, binMiddle]
  norm_num

/-- A singular value decomposition and an inverse: `diag(2, 1)`. -/
example : IsSvd (!![2, 0; 0, 1] : Matrix (Fin 2) (Fin 2) ℝ) 1 (fun j => if j = 0 then 2 else if j = 1 then 1 else 0) := by
  refine ⟨by simp, ?_, ?_, 1, by simp, ?_⟩
  · intro a b h
    dsimp only
    split_ifs <;> first | omega | norm_num
  · intro j
    dsimp only
    split_ifs <;> norm_num
  · ext i j
    fin_cases i <;> fin_cases j <;> simp

example : IsInv fun a : Matrix (Fin 2) (Fin 2) ℝ => a⁻¹ := fun a b h => mul_nonsing_inv a (isUnit_iff_exists_inv.2 ⟨b.det, by rw [← det_mul, h, det_one]⟩)

example : (!![3 / 5, 4 / 5] : Matrix (Fin 1) (Fin 2) ℝ) * (!![3 / 5, 4 / 5] : Matrix (Fin 1) (Fin 2) ℝ)ᵀ = 1 := by
  ext i j
  fin_cases i
  fin_cases j
  simp [mul_apply]
  norm_num

/-- From 128 bins to 32. -/
example (B : Matrix (Fin 3) (Fin 128) ℝ) (c : Fin 3 → Fin 3 → ℂ) : (restoreCoarse B 32 c).isSome ∧ ¬ (restoreCoarse B 100 c).isSome := by
  rw [(C98_coarse (by norm_num) B c 32).1, (C98_coarse (by norm_num) B c 100).1]
  decide

end Feyn
