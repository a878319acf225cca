import Verif.Spec.Fourier
import Mathlib.Algebra.Ring.GeomSum
import Mathlib.Algebra.BigOperators.Pi
import Mathlib.Algebra.BigOperators.Module
import Mathlib.Algebra.BigOperators.Ring.Finset
import Mathlib.Algebra.Module.BigOperators

/-! Inversion of the discrete Fourier transforms of dyson/weight.py. -/

namespace Feyn

set_option linter.unusedSectionVars false

section
variable {F M : Type} [Field F] [AddCommGroup M] [Module F M] {d : ℕ} {L : Fin d → ℕ} {N : ℕ}

theorem Phase.zero (E : Phase F) : E.ph 0 = 1 := (E.one_iff 0).2 ⟨0, by simp⟩

theorem Phase.int (E : Phase F) (k : ℤ) : E.ph (2 * k) = 1 := (E.one_iff _).2 ⟨k, rfl⟩

theorem Phase.mul_neg (E : Phase F) (a : ℚ) : E.ph a * E.ph (-a) = 1 := by rw [← E.add, add_neg_cancel, E.zero]

theorem Phase.pow (E : Phase F) (a : ℚ) (n : ℕ) : E.ph (n * a) = E.ph a ^ n := by
  induction n with
  | zero => simp [E.zero]
  | succ n ih => rw [pow_succ, ← ih, ← E.add]; congr 1; push_cast; ring

theorem Phase.sum (E : Phase F) {ι : Type} (s : Finset ι) (a : ι → ℚ) : E.ph (∑ i ∈ s, a i) = ∏ i ∈ s, E.ph (a i) := by
  classical
  induction s using Finset.induction_on with
  | empty => simp [E.zero]
  | insert i s hi ih => rw [Finset.sum_insert hi, Finset.prod_insert hi, E.add, ih]

/-- Orthogonality. -/
theorem Phase.orth (E : Phase F) (hN : 0 < N) (z : ℤ) (hz : |z| < N) :
    ∑ n : Fin N, E.ph (2 * (((n : ℕ) : ℚ) * z) / N) = if z = 0 then (N : F) else 0 := by
  have hN' : (N : ℚ) ≠ 0 := by positivity
  by_cases h0 : z = 0
  · subst h0; simp [E.zero]
  · rw [if_neg h0]
    have hr : E.ph (2 * z / N) ≠ 1 := by
      intro h
      obtain ⟨k, hk⟩ := (E.one_iff _).1 h
      have : (z : ℚ) = k * N := by field_simp at hk; linarith
      have hz' : z = k * N := by exact_mod_cast this
      have hk0 : k ≠ 0 := by rintro rfl; simp at hz'; exact h0 hz'
      have : (N : ℤ) ≤ |z| := by
        rw [hz', abs_mul, abs_of_nonneg (by positivity : (0 : ℤ) ≤ N)]
        exact le_mul_of_one_le_left (by positivity) (Int.one_le_abs hk0)
      omega
    have e1 : ∀ n : Fin N, E.ph (2 * (((n : ℕ) : ℚ) * z) / N) = E.ph (2 * z / N) ^ (n : ℕ) := by
      intro n
      rw [← E.pow]
      congr 1; ring
    simp only [e1]
    rw [Fin.sum_univ_eq_sum_range (fun n => E.ph (2 * z / N) ^ n) N]
    have e2 : E.ph (2 * z / N) ^ N = 1 := by
      rw [← E.pow, show (N : ℚ) * (2 * z / N) = 2 * z by field_simp]
      exact E.int z
    have e3 := geom_sum_mul (E.ph (2 * z / N)) N
    rw [e2, sub_self] at e3
    exact (mul_eq_zero.1 e3).resolve_right (sub_ne_zero.2 hr)

theorem fin_abs_sub (a b : Fin N) : |((a : ℕ) : ℤ) - ((b : ℕ) : ℤ)| < N := by
  have := a.2; have := b.2
  rw [abs_lt]; omega

variable [CharZero F]

/-- Inversion of a transform whose kernels are inverse matrices. -/
theorem kernel_inv {X Y : Type} [Fintype X] [Fintype Y] [DecidableEq X] (K : Y → X → F) (K' : X → Y → F)
    (h : ∀ x x', ∑ y, K' x y * K y x' = if x' = x then 1 else 0) (f : X → M) (x : X) :
    ∑ y, K' x y • ∑ x', K y x' • f x' = f x := by
  have : ∑ y, K' x y • ∑ x', K y x' • f x' = ∑ x', (∑ y, K' x y * K y x') • f x' := by
    simp only [Finset.smul_sum, smul_smul, Finset.sum_smul]
    exact Finset.sum_comm
  rw [this]
  simp [h]

theorem ifft_fft (E : Phase F) (hN : 0 < N) (f : Grid L N M) : ifft E (fft E f) = f := by
  have hN' : (N : F) ≠ 0 := by exact_mod_cast hN.ne'
  funext r n
  unfold ifft fft
  have := kernel_inv (fun (m : Fin N) (n' : Fin N) => E.ph (2 * ((n' : ℕ) * (m : ℕ)) / N))
    (fun (n m : Fin N) => (N : F)⁻¹ * E.ph (-(2 * ((n : ℕ) * (m : ℕ)) / N))) ?_ (f r) n
  · simp only [mul_smul] at this
    rw [← Finset.smul_sum] at this
    exact this
  · intro x x'
    have e : ∀ y : Fin N, (N : F)⁻¹ * E.ph (-(2 * ((x : ℕ) * (y : ℕ)) / N)) * E.ph (2 * ((x' : ℕ) * (y : ℕ)) / N) =
        (N : F)⁻¹ * E.ph (2 * (((y : ℕ) : ℚ) * ((((x' : ℕ) : ℤ) - ((x : ℕ) : ℤ) : ℤ) : ℚ)) / N) := by
      intro y
      rw [mul_assoc, ← E.add]
      congr 2
      push_cast
      ring
    simp only [e]
    rw [← Finset.mul_sum, E.orth hN _ (fin_abs_sub _ _)]
    by_cases hx : x' = x
    · subst hx; simp [hN']
    · have : ((x' : ℕ) : ℤ) - ((x : ℕ) : ℤ) ≠ 0 := fun h => hx (Fin.ext (by omega))
      simp [hx, this]

theorem fft_ifft (E : Phase F) (hN : 0 < N) (f : Grid L N M) : fft E (ifft E f) = f := by
  have hN' : (N : F) ≠ 0 := by exact_mod_cast hN.ne'
  funext r n
  unfold ifft fft
  have := kernel_inv (fun (m : Fin N) (n' : Fin N) => (N : F)⁻¹ * E.ph (-(2 * ((m : ℕ) * (n' : ℕ)) / N)))
    (fun (n m : Fin N) => E.ph (2 * ((m : ℕ) * (n : ℕ)) / N)) ?_ (f r) n
  · simp only [mul_smul] at this
    simp only [← Finset.smul_sum] at this
    exact this
  · intro x x'
    have e : ∀ y : Fin N, E.ph (2 * ((y : ℕ) * (x : ℕ)) / N) * ((N : F)⁻¹ * E.ph (-(2 * ((y : ℕ) * (x' : ℕ)) / N))) =
        (N : F)⁻¹ * E.ph (2 * (((y : ℕ) : ℚ) * ((((x : ℕ) : ℤ) - ((x' : ℕ) : ℤ) : ℤ) : ℚ)) / N) := by
      intro y
      rw [mul_left_comm, ← E.add]
      congr 2
      push_cast
      ring
    simp only [e]
    rw [← Finset.mul_sum, E.orth hN _ (fin_abs_sub _ _)]
    by_cases hx : x' = x
    · subst hx; simp [hN']
    · have : ((x : ℕ) : ℤ) - ((x' : ℕ) : ℤ) ≠ 0 := fun h => hx (Fin.ext (by omega))
      simp [hx, this]

/-- Orthogonality on the lattice. -/
theorem Phase.orthn (E : Phase F) (hL : ∀ i, 0 < L i) (x x' : ∀ i, Fin (L i)) :
    (∏ i, (L i : F))⁻¹ * ∑ k : ∀ i, Fin (L i), E.ph (angle x' k - angle x k) = if x' = x then 1 else 0 := by
  have hL' : ∏ i, (L i : F) ≠ 0 := Finset.prod_ne_zero_iff.2 fun i _ => by exact_mod_cast (hL i).ne'
  have e : ∀ k : ∀ i, Fin (L i), E.ph (angle x' k - angle x k) =
      ∏ i, E.ph (2 * (((k i : ℕ) : ℚ) * ((((x' i : ℕ) : ℤ) - ((x i : ℕ) : ℤ) : ℤ) : ℚ)) / L i) := by
    intro k
    rw [← E.sum]
    congr 1
    unfold angle
    rw [← Finset.sum_sub_distrib]
    refine Finset.sum_congr rfl fun i _ => ?_
    push_cast
    ring
  simp only [e]
  have key := Finset.prod_univ_sum (fun i => (Finset.univ : Finset (Fin (L i))))
    (fun i k => E.ph (2 * (((k : ℕ) : ℚ) * ((((x' i : ℕ) : ℤ) - ((x i : ℕ) : ℤ) : ℤ) : ℚ)) / L i))
  rw [Fintype.piFinset_univ] at key
  rw [← key]
  have e2 : ∀ i, ∑ k : Fin (L i), E.ph (2 * (((k : ℕ) : ℚ) * ((((x' i : ℕ) : ℤ) - ((x i : ℕ) : ℤ) : ℤ) : ℚ)) / L i) =
      if x' i = x i then (L i : F) else 0 := by
    intro i
    rw [E.orth (hL i) _ (fin_abs_sub _ _)]
    by_cases hx : x' i = x i
    · simp [hx]
    · have : ((x' i : ℕ) : ℤ) - ((x i : ℕ) : ℤ) ≠ 0 := fun h => hx (Fin.ext (by omega))
      simp [hx, this]
  simp only [e2]
  by_cases hx : x' = x
  · subst hx; simp [hL']
  · rw [if_neg hx]
    obtain ⟨i, hi⟩ := Function.ne_iff.1 hx
    have hz : (∏ i, if x' i = x i then (L i : F) else 0) = 0 := Finset.prod_eq_zero (Finset.mem_univ i) (if_neg hi)
    rw [hz, mul_zero]

theorem angle_comm (x k : ∀ i, Fin (L i)) : angle x k = angle k x := by
  unfold angle
  exact Finset.sum_congr rfl fun i _ => by ring

theorem ifftn_fftn (E : Phase F) (hL : ∀ i, 0 < L i) (f : Grid L N M) : ifftn E (fftn E f) = f := by
  funext r n
  unfold ifftn fftn
  have := kernel_inv (fun (k r : ∀ i, Fin (L i)) => E.ph (angle r k))
    (fun (r k : ∀ i, Fin (L i)) => (∏ i, (L i : F))⁻¹ * E.ph (-angle r k)) ?_ (fun r => f r n) r
  · simp only [mul_smul] at this
    rw [← Finset.smul_sum] at this
    exact this
  · intro x x'
    rw [← E.orthn hL x x', Finset.mul_sum]
    refine Finset.sum_congr rfl fun k _ => ?_
    rw [mul_assoc, ← E.add]
    congr 2
    ring

theorem fftn_ifftn (E : Phase F) (hL : ∀ i, 0 < L i) (f : Grid L N M) : fftn E (ifftn E f) = f := by
  funext r n
  unfold ifftn fftn
  have := kernel_inv (fun (k r : ∀ i, Fin (L i)) => (∏ i, (L i : F))⁻¹ * E.ph (-angle k r))
    (fun (r k : ∀ i, Fin (L i)) => E.ph (angle k r)) ?_ (fun r => f r n) r
  · simp only [mul_smul] at this
    simp only [← Finset.smul_sum] at this
    exact this
  · intro x x'
    rw [show (if x' = x then (1 : F) else 0) = if x = x' then 1 else 0 by simp [eq_comm]]
    rw [← E.orthn hL x' x, Finset.mul_sum]
    refine Finset.sum_congr rfl fun k _ => ?_
    rw [mul_left_comm, ← E.add]
    congr 2
    rw [angle_comm k x, angle_comm k x']
    ring

/-! ### The time transform -/

variable (κ : Kind)

theorem Kind.changeSymmetry_inv (E : Phase F) (f : Grid L N M) : κ.changeSymmetry E (-1) (κ.changeSymmetry E 1 f) = f ∧
    κ.changeSymmetry E 1 (κ.changeSymmetry E (-1) f) = f := by
  unfold Kind.changeSymmetry
  by_cases h : (κ.sym || !κ.hasTau) = true
  · simp [h]
  · simp only [h, if_false, Bool.false_eq_true]
    constructor <;> funext r n <;> rw [smul_smul, ← E.add] <;> simp [E.zero]

theorem Kind.additionalPhase_inv (E : Phase F) (f : Grid L N M) : κ.additionalPhase E (-1) (κ.additionalPhase E 1 f) = f ∧
    κ.additionalPhase E 1 (κ.additionalPhase E (-1) f) = f := by
  unfold Kind.additionalPhase
  by_cases h : (!κ.hasTau) = true
  · simp [h]
  · simp only [h, if_false, Bool.false_eq_true]
    constructor <;> funext r n <;> rw [smul_smul, ← E.add] <;> simp [E.zero]

theorem Kind.toT_toW (E : Phase F) (hN : 0 < N) (f : Grid L N M) : κ.toT E (κ.toW E f) = f := by
  unfold Kind.toT Kind.toW
  by_cases h : (!κ.hasTau) = true
  · simp [h]
  · simp only [h, if_false, Bool.false_eq_true]
    rw [(κ.additionalPhase_inv E _).1, ifft_fft E hN, (κ.changeSymmetry_inv E _).1]

theorem Kind.toW_toT (E : Phase F) (hN : 0 < N) (f : Grid L N M) : κ.toW E (κ.toT E f) = f := by
  unfold Kind.toT Kind.toW
  by_cases h : (!κ.hasTau) = true
  · simp [h]
  · simp only [h, if_false, Bool.false_eq_true]
    rw [(κ.changeSymmetry_inv E _).2, fft_ifft E hN, (κ.additionalPhase_inv E _).2]

theorem Kind.accuToT_accuToW (E : Phase F) (hN : 0 < N) (f : Grid L N M) : κ.accuToT E (κ.accuToW E f) = f := by
  unfold Kind.accuToT Kind.accuToW
  by_cases h : (!κ.hasTau) = true
  · simp [h]
  · simp only [h, if_false, Bool.false_eq_true]
    rw [ifft_fft E hN, (κ.changeSymmetry_inv E _).1]

theorem Kind.accuToW_accuToT (E : Phase F) (hN : 0 < N) (f : Grid L N M) : κ.accuToW E (κ.accuToT E f) = f := by
  unfold Kind.accuToT Kind.accuToW
  by_cases h : (!κ.hasTau) = true
  · simp [h]
  · simp only [h, if_false, Bool.false_eq_true]
    rw [(κ.changeSymmetry_inv E _).2, fft_ifft E hN]

/-- The transform with its two phase factors is the Matsubara transform. -/
theorem Kind.toW_eq (E : Phase F) (hN : 0 < N) (hb : κ.beta ≠ 0) (ht : κ.hasTau = true) (f : Grid L N M) :
    κ.toW E f = matsubara E κ.sigma f := by
  have hN' : (N : ℚ) ≠ 0 := by positivity
  unfold Kind.toW Kind.additionalPhase Kind.changeSymmetry fft matsubara Kind.sigma
  simp only [ht, Bool.not_true, Bool.or_false, Bool.false_eq_true, if_false]
  funext r m
  rw [Finset.smul_sum]
  refine Finset.sum_congr rfl fun n _ => ?_
  cases hs : κ.sym
  · simp only [Bool.false_eq_true, if_false]
    rw [smul_smul, smul_smul, ← E.add, ← E.add]
    congr 2
    unfold indexToTau
    push_cast
    field_simp
    ring
  · simp only [if_true]
    rw [smul_smul, ← E.add]
    congr 2
    push_cast
    field_simp
    ring

/-! ### Linear maps of the two kinds commute -/

/-- A transform of the lattice vector and one of the time bin commute. -/
theorem fftn_time (E : Phase F) (K : Fin N → Fin N → F) (f : Grid L N M) :
    (fftn E fun r m => ∑ n, K m n • f r n) = fun k m => ∑ n, K m n • fftn E f k n := by
  funext k m
  unfold fftn
  simp only [Finset.smul_sum]
  rw [Finset.sum_comm]
  exact Finset.sum_congr rfl fun n _ => Finset.sum_congr rfl fun r _ => smul_comm _ _ _

theorem fftn_matsubara (E : Phase F) (σ : ℕ) (f : Grid L N M) : fftn E (matsubara E σ f) = matsubara E σ (fftn E f) :=
  fftn_time E (fun m n => E.ph ((2 * ((m : ℕ) : ℚ) + σ) * ((((n : ℕ) : ℚ) + 1 / 2) / N))) f

end

end Feyn
