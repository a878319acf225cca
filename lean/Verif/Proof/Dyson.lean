import Verif.Proof.Fourier
import Verif.Spec.Dyson
import Verif.Props.Fourier
import Mathlib.Data.Matrix.Basic
import Mathlib.Algebra.Group.Fin.Basic

/-! Convolutions become products under the transforms. -/

namespace Feyn

set_option linter.unusedSectionVars false

section
variable {F M : Type} [Field F] [CharZero F] [AddCommGroup M] [Module F M] {d : ℕ} {L : Fin d → ℕ} {N : ℕ}

theorem Phase.ph_one (E : Phase F) : E.ph 1 = -1 := by
  have h1 : E.ph 1 * E.ph 1 = 1 := by rw [← E.add]; exact (E.one_iff _).2 ⟨1, by norm_num⟩
  have h2 : E.ph 1 ≠ 1 := fun h => by
    obtain ⟨k, hk⟩ := (E.one_iff 1).1 h
    have : (1 : ℤ) = 2 * k := by exact_mod_cast hk
    omega
  have h3 : (E.ph 1 - 1) * (E.ph 1 + 1) = 0 := by linear_combination h1
  exact eq_neg_of_add_eq_zero_left ((mul_eq_zero.1 h3).resolve_left (sub_ne_zero.2 h2))

/-- The phase of frequency `m` at position `x` in units of bins. -/
def Phase.at (E : Phase F) (N σ m : ℕ) (x : ℚ) : F := E.ph ((2 * (m : ℚ) + σ) * (x / N))

theorem Phase.at_add (E : Phase F) (σ m : ℕ) (x y : ℚ) : E.at N σ m (x + y) = E.at N σ m x * E.at N σ m y := by
  unfold Phase.at
  rw [← E.add]
  congr 1
  ring

/-- A sum over one period does not depend on where the period starts. -/
theorem sum_period (h : ℤ → M) (hp : ∀ z, h (z + N) = h z) (c : ℤ) :
    ∑ n ∈ Finset.range N, h (n + c) = ∑ n ∈ Finset.range N, h n := by
  have step : ∀ c : ℤ, ∑ n ∈ Finset.range N, h (n + (c + 1)) = ∑ n ∈ Finset.range N, h (n + c) := by
    intro c
    have e : ∀ n : ℕ, h (n + (c + 1)) = h (((n + 1 : ℕ) : ℤ) + c) := fun n => by congr 1; push_cast; ring
    simp only [e]
    have h1 := Finset.sum_range_succ (fun n : ℕ => h ((n : ℤ) + c)) N
    have h2 := Finset.sum_range_succ' (fun n : ℕ => h ((n : ℤ) + c)) N
    rw [h1] at h2
    have h3 : h ((N : ℤ) + c) = h (((0 : ℕ) : ℤ) + c) := by rw [add_comm, hp]; simp
    rw [h3] at h2
    exact (add_right_cancel h2).symm
  induction c using Int.induction_on with
  | zero => simp
  | succ i ih => rw [step, ih]
  | pred i ih => rw [← ih, ← step]; refine Finset.sum_congr rfl fun n _ => ?_; congr 1; ring

variable [NeZero N]

theorem cont_period (σ : ℕ) (f : Grid L N M) (r : ∀ i, Fin (L i)) (z : ℤ) :
    cont σ f r (z + N) = if σ = 1 then -cont σ f r z else cont σ f r z := by
  have hN : (N : ℤ) ≠ 0 := by exact_mod_cast NeZero.ne N
  unfold cont
  rw [Int.add_emod_right, Int.add_ediv_of_dvd_right (dvd_refl _), Int.ediv_self hN]
  by_cases h : σ = 1
  · simp only [h, true_and, if_true]
    rcases Int.emod_two_eq_zero_or_one (z / N) with h0 | h0
    · rw [if_pos (by omega), if_neg (by omega)]
    · rw [if_neg (by omega), if_pos (by omega), neg_neg]
  · simp [h]

theorem cont_bin (σ : ℕ) (f : Grid L N M) (r : ∀ i, Fin (L i)) (n : Fin N) : cont σ f r ((n : ℕ) : ℤ) = f r n := by
  unfold cont
  have h1 : (((n : ℕ) : ℤ)) / N = 0 := Int.ediv_eq_zero_of_lt (by positivity) (by exact_mod_cast n.2)
  have h2 : (((n : ℕ) : ℤ)) % N = n := Int.emod_eq_of_lt (by positivity) (by exact_mod_cast n.2)
  rw [h1, h2, if_neg (by simp)]
  congr 1
  ext
  simp

/-- The transform of a shifted function. -/
theorem matsubara_cont (E : Phase F) (σ : ℕ) (hσ : σ = 0 ∨ σ = 1) (f : Grid L N M) (r : ∀ i, Fin (L i)) (m : Fin N) (c : ℤ) :
    ∑ n : Fin N, E.at N σ m (((n : ℕ) : ℚ) + 1 / 2) • cont σ f r (((n : ℕ) : ℤ) - c) = E.at N σ m c • matsubara E σ f r m := by
  have hN : (N : ℚ) ≠ 0 := by exact_mod_cast NeZero.ne N
  let h : ℤ → M := fun z => E.at N σ m ((z : ℚ) + 1 / 2) • cont σ f r (z - c)
  have hp : ∀ z, h (z + N) = h z := by
    intro z
    have e1 : (((z + N : ℤ) : ℚ) + 1 / 2) = ((z : ℚ) + 1 / 2) + N := by push_cast; ring
    have e2 : E.at N σ m (N : ℚ) = if σ = 1 then -1 else 1 := by
      unfold Phase.at
      rw [div_self hN, mul_one, E.add]
      have := E.int (m : ℕ)
      push_cast at this
      rw [this, one_mul]
      rcases hσ with rfl | rfl
      · simp [E.zero]
      · simp [E.ph_one]
    show E.at N σ m (((z + N : ℤ) : ℚ) + 1 / 2) • cont σ f r (z + N - c) = _
    rw [e1, E.at_add, e2, show z + (N : ℤ) - c = (z - c) + N by ring, cont_period]
    by_cases h1 : σ = 1 <;> simp [h, h1]
  have h1 : ∑ n : Fin N, E.at N σ m (((n : ℕ) : ℚ) + 1 / 2) • cont σ f r (((n : ℕ) : ℤ) - c) = ∑ n ∈ Finset.range N, h n := by
    rw [← Fin.sum_univ_eq_sum_range (fun n => h (n : ℤ)) N]
    refine Finset.sum_congr rfl fun n _ => ?_
    simp [h]
  rw [h1, ← sum_period h hp c, ← Fin.sum_univ_eq_sum_range (fun n => h ((n : ℤ) + c)) N]
  unfold matsubara
  rw [Finset.smul_sum]
  refine Finset.sum_congr rfl fun n _ => ?_
  show E.at N σ m ((((n : ℕ) : ℤ) + c : ℤ) + 1 / 2) • cont σ f r (((n : ℕ) : ℤ) + c - c) = _
  rw [add_sub_cancel_right, cont_bin, smul_smul]
  congr 1
  show _ = E.at N σ m c * E.at N σ m (((n : ℕ) : ℚ) + 1 / 2)
  rw [← E.at_add]
  congr 1
  push_cast
  ring

variable [∀ i, NeZero (L i)]

theorem ph_angle_add (E : Phase F) (r s k : ∀ i, Fin (L i)) : E.ph (angle (r + s) k) = E.ph (angle r k) * E.ph (angle s k) := by
  unfold angle
  rw [E.sum, E.sum, E.sum, ← Finset.prod_mul_distrib]
  refine Finset.prod_congr rfl fun i _ => ?_
  have hL : (L i : ℚ) ≠ 0 := by exact_mod_cast NeZero.ne (L i)
  rw [← E.add]
  have h := Nat.div_add_mod ((r i : ℕ) + (s i : ℕ)) (L i)
  have h1 : (((r + s) i : Fin (L i)) : ℕ) = ((r i : ℕ) + (s i : ℕ)) % L i := by
    rw [Pi.add_apply, Fin.val_add]
  rw [h1]
  generalize ((r i : ℕ) + (s i : ℕ)) / L i = q at h
  generalize ((r i : ℕ) + (s i : ℕ)) % L i = x at h
  have h2 : (L i : ℚ) * q + x = (r i : ℕ) + (s i : ℕ) := by exact_mod_cast h
  have h3 : 2 * (((r i : ℕ) : ℚ) * (k i : ℕ)) / L i + 2 * (((s i : ℕ) : ℚ) * (k i : ℕ)) / L i =
      2 * ((x : ℚ) * (k i : ℕ)) / L i + 2 * (((q * (k i : ℕ) : ℕ) : ℤ) : ℚ) := by
    push_cast
    field_simp
    linear_combination -((k i : ℕ) : ℚ) * h2
  rw [h3, E.add, E.int, mul_one]

/-- The full transform of a function of lattice vector and time. -/
def full (E : Phase F) (σ : ℕ) (f : Grid L N M) : Grid L N M := fftn E (matsubara E σ f)

/-- The full transform of a function shifted in space and time. -/
theorem full_shift (E : Phase F) (σ : ℕ) (hσ : σ = 0 ∨ σ = 1) (f : Grid L N M) (s : ∀ i, Fin (L i)) (c : ℤ) (k : ∀ i, Fin (L i))
    (m : Fin N) :
    full E σ (fun r n => cont σ f (r - s) (((n : ℕ) : ℤ) - c)) k m = (E.ph (angle s k) * E.at N σ m c) • full E σ f k m := by
  have h1 : full E σ (fun r n => cont σ f (r - s) (((n : ℕ) : ℤ) - c)) k m =
      ∑ r, E.ph (angle r k) • E.at N σ m c • matsubara E σ f (r - s) m := by
    unfold full fftn
    refine Finset.sum_congr rfl fun r _ => ?_
    congr 1
    rw [← matsubara_cont E σ hσ]
    rfl
  rw [h1, ← Equiv.sum_comp (Equiv.addRight s)]
  unfold full fftn
  rw [Finset.smul_sum]
  refine Finset.sum_congr rfl fun r _ => ?_
  simp only [Equiv.coe_addRight, add_sub_cancel_right]
  rw [ph_angle_add, smul_smul, smul_smul]
  congr 1
  ring

theorem full_add (E : Phase F) (σ : ℕ) (f g : Grid L N M) (k : ∀ i, Fin (L i)) (m : Fin N) :
    full E σ (fun r n => f r n + g r n) k m = full E σ f k m + full E σ g k m := by
  unfold full fftn matsubara
  simp only [smul_add, Finset.sum_add_distrib]

theorem full_smul (E : Phase F) (σ : ℕ) (x : F) (f : Grid L N M) (k : ∀ i, Fin (L i)) (m : Fin N) :
    full E σ (fun r n => x • f r n) k m = x • full E σ f k m := by
  unfold full fftn matsubara
  simp only [Finset.smul_sum]
  exact Finset.sum_congr rfl fun r _ => Finset.sum_congr rfl fun n _ => by
    rw [smul_comm _ x, smul_comm _ x]

theorem full_neg (E : Phase F) (σ : ℕ) (f : Grid L N M) (k : ∀ i, Fin (L i)) (m : Fin N) :
    full E σ (fun r n => -f r n) k m = -full E σ f k m := by
  unfold full fftn matsubara
  simp only [smul_neg, Finset.sum_neg_distrib]

theorem full_sum (E : Phase F) (σ : ℕ) {ι : Type} (s : Finset ι) (f : ι → Grid L N M) (k : ∀ i, Fin (L i)) (m : Fin N) :
    full E σ (fun r n => ∑ i ∈ s, f i r n) k m = ∑ i ∈ s, full E σ (f i) k m := by
  unfold full fftn matsubara
  simp only [Finset.smul_sum]
  rw [Finset.sum_comm]
  simp only [Finset.sum_comm (s := s)]
  rw [Finset.sum_comm]

variable {A : Type} [Ring A] [Algebra F A]

theorem full_mul (E : Phase F) (σ : ℕ) (a : A) (f : Grid L N A) (k : ∀ i, Fin (L i)) (m : Fin N) :
    full E σ (fun r n => a * f r n) k m = a * full E σ f k m := by
  unfold full fftn matsubara
  simp only [Finset.mul_sum, mul_smul_comm]

theorem full_eq (E : Phase F) (σ : ℕ) (f : Grid L N M) (k : ∀ i, Fin (L i)) (m : Fin N) :
    full E σ f k m = ∑ r, ∑ n : Fin N, (E.ph (angle r k) * E.at N σ m (((n : ℕ) : ℚ) + 1 / 2)) • f r n := by
  unfold full fftn matsubara
  simp only [Finset.smul_sum, smul_smul]
  rfl

end

section
variable {S F : Type} [Fintype S] [DecidableEq S] [Field F] [CharZero F] {d : ℕ} {L : Fin d → ℕ} {N : ℕ} [NeZero N] [∀ i, NeZero (L i)]

theorem full_conv3 (E : Phase F) (σ : ℕ) (hσ : σ = 0 ∨ σ = 1) (A B C : Grid L N (Matrix S S F)) (k : ∀ i, Fin (L i)) (m : Fin N) :
    full E σ (conv3 σ A B C) k m = full E σ A k m * full E σ B k m * full E σ C k m := by
  have h1 : full E σ (conv3 σ A B C) k m = ∑ r1, ∑ r2, ∑ j : Fin N, ∑ l : Fin N,
      A r1 j * B r2 l * full E σ (fun r n => cont σ C (r - (r1 + r2)) (((n : ℕ) : ℤ) - ((j : ℕ) + (l : ℕ) + 1 : ℤ))) k m := by
    unfold conv3
    rw [full_sum]
    refine Finset.sum_congr rfl fun r1 _ => ?_
    rw [full_sum]
    refine Finset.sum_congr rfl fun r2 _ => ?_
    rw [full_sum]
    refine Finset.sum_congr rfl fun j _ => ?_
    rw [full_sum]
    refine Finset.sum_congr rfl fun l _ => ?_
    rw [full_mul]
    congr 2
    funext r n
    rw [sub_sub]
    congr 1
    ring
  rw [h1, full_eq E σ A, full_eq E σ B]
  rw [Finset.sum_mul, Finset.sum_mul]
  refine Finset.sum_congr rfl fun r1 _ => ?_
  rw [Finset.sum_mul, Finset.sum_mul, Finset.sum_comm]
  refine Finset.sum_congr rfl fun j _ => ?_
  rw [Finset.mul_sum, Finset.sum_mul]
  refine Finset.sum_congr rfl fun r2 _ => ?_
  rw [Finset.mul_sum, Finset.sum_mul]
  refine Finset.sum_congr rfl fun l _ => ?_
  rw [full_shift E σ hσ, mul_smul_comm, smul_mul_smul_comm, smul_mul_assoc, ph_angle_add]
  congr 1
  have h2 : ((((j : ℕ) : ℤ) + (l : ℕ) + 1 : ℤ) : ℚ) = (((j : ℕ) : ℚ) + 1 / 2) + (((l : ℕ) : ℚ) + 1 / 2) := by push_cast; ring
  rw [h2, E.at_add]
  ring

/-- The correction factor of a product whose times fall on the boundaries of bins. -/
theorem at_half (E : Phase F) (σ m : ℕ) (j : ℚ) :
    (1 / 2 : F) * (E.at N σ m j + E.at N σ m (j + 1)) = E.at N σ m (j + 1 / 2) * E.cos ((2 * (m : ℚ) + σ) / (2 * N)) := by
  have h1 : E.at N σ m j = E.at N σ m (j + 1 / 2) * E.at N σ m (-(1 / 2)) := by rw [← E.at_add]; congr 1; ring
  have h2 : E.at N σ m (j + 1) = E.at N σ m (j + 1 / 2) * E.at N σ m (1 / 2) := by rw [← E.at_add]; congr 1; ring
  have h3 : E.ph ((2 * (m : ℚ) + σ) / (2 * N)) = E.at N σ m (1 / 2) := by unfold Phase.at; congr 1; ring
  have h4 : E.ph (-((2 * (m : ℚ) + σ) / (2 * N))) = E.at N σ m (-(1 / 2)) := by unfold Phase.at; congr 1; ring
  unfold Phase.cos
  rw [h1, h2, h3, h4]
  ring

theorem full_pair (E : Phase F) (σ : ℕ) (hσ : σ = 0 ∨ σ = 1) (X : Matrix S S F) (C : Grid L N (Matrix S S F)) (s k : ∀ i, Fin (L i)) (m : Fin N)
    (j : ℕ) :
    full E σ (fun r n => (1 / 2 : F) • (X * (cont σ C (r - s) (((n : ℕ) : ℤ) - j) + cont σ C (r - s) (((n : ℕ) : ℤ) - j - 1)))) k m =
      (E.cos ((2 * ((m : ℕ) : ℚ) + σ) / (2 * N)) * (E.ph (angle s k) * E.at N σ m ((j : ℚ) + 1 / 2))) • (X * full E σ C k m) := by
  rw [full_smul, full_mul, full_add]
  have h1 := full_shift E σ hσ C s (j : ℤ) k m
  have h2 := full_shift E σ hσ C s ((j : ℤ) + 1) k m
  have h3 : (fun (r : ∀ i, Fin (L i)) (n : Fin N) => cont σ C (r - s) (((n : ℕ) : ℤ) - j - 1)) =
      fun r (n : Fin N) => cont σ C (r - s) (((n : ℕ) : ℤ) - ((j : ℤ) + 1)) := by funext r n; congr 1; ring
  rw [h3, h1, h2, ← add_smul, mul_smul_comm, smul_smul]
  congr 1
  have h4 := at_half (N := N) E σ m j
  push_cast
  linear_combination E.ph (angle s k) * h4

theorem full_conv2 (E : Phase F) (σ : ℕ) (hσ : σ = 0 ∨ σ = 1) (A : Grid L N (Matrix S S F)) (B : Grid L 1 (Matrix S S F)) (C : Grid L N (Matrix S S F))
    (k : ∀ i, Fin (L i)) (m : Fin N) :
    full E σ (conv2 σ A B C) k m =
      E.cos ((2 * ((m : ℕ) : ℚ) + σ) / (2 * N)) • (full E σ A k m * fftn E B k 0 * full E σ C k m) := by
  unfold conv2
  rw [full_sum, full_eq E σ A, Finset.sum_mul, Finset.sum_mul, Finset.smul_sum]
  refine Finset.sum_congr rfl fun r1 _ => ?_
  rw [full_sum, Finset.sum_mul, Finset.sum_mul, Finset.smul_sum]
  simp only [full_sum]
  rw [Finset.sum_comm]
  refine Finset.sum_congr rfl fun j _ => ?_
  unfold fftn
  rw [Finset.mul_sum, Finset.sum_mul, Finset.smul_sum]
  refine Finset.sum_congr rfl fun r2 _ => ?_
  simp only [sub_sub _ r1 r2]
  rw [full_pair E σ hσ, smul_mul_smul_comm, smul_mul_assoc, smul_smul, ph_angle_add]
  congr 1
  ring

theorem full_conv2' (E : Phase F) (σ : ℕ) (hσ : σ = 0 ∨ σ = 1) (A : Grid L 1 (Matrix S S F)) (B : Grid L N (Matrix S S F)) (C : Grid L N (Matrix S S F))
    (k : ∀ i, Fin (L i)) (m : Fin N) :
    full E σ (conv2' σ A B C) k m =
      E.cos ((2 * ((m : ℕ) : ℚ) + σ) / (2 * N)) • (fftn E A k 0 * full E σ B k m * full E σ C k m) := by
  unfold conv2'
  rw [full_sum, full_eq E σ B]
  conv_rhs => unfold fftn
  rw [Finset.sum_mul, Finset.sum_mul, Finset.smul_sum]
  refine Finset.sum_congr rfl fun r1 _ => ?_
  rw [full_sum, Finset.mul_sum, Finset.sum_mul, Finset.smul_sum]
  refine Finset.sum_congr rfl fun r2 _ => ?_
  rw [full_sum, Finset.mul_sum, Finset.sum_mul, Finset.smul_sum]
  refine Finset.sum_congr rfl fun j _ => ?_
  simp only [sub_sub _ r1 r2]
  rw [full_pair E σ hσ, smul_mul_smul_comm, smul_mul_assoc, smul_smul, ph_angle_add]
  congr 1
  ring

theorem full_conv1 (E : Phase F) (σ : ℕ) (A : Grid L 1 (Matrix S S F)) (B : Grid L N (Matrix S S F)) (C : Grid L 1 (Matrix S S F))
    (k : ∀ i, Fin (L i)) (m : Fin N) :
    full E σ (conv1 A B C) k m = fftn E A k 0 * full E σ B k m * fftn E C k 0 := by
  rw [full_eq, full_eq E σ B]
  unfold conv1
  simp only [Finset.smul_sum]
  have h1 : ∀ r1 r2 (n : Fin N),
      ∑ r, (E.ph (angle r k) * E.at N σ m (((n : ℕ) : ℚ) + 1 / 2)) • (A r1 0 * B r2 n * C (r - r1 - r2) 0) =
        E.ph (angle r1 k) • A r1 0 * ((E.ph (angle r2 k) * E.at N σ m (((n : ℕ) : ℚ) + 1 / 2)) • B r2 n) * fftn E C k 0 := by
    intro r1 r2 n
    rw [← Equiv.sum_comp (Equiv.addRight (r1 + r2))]
    unfold fftn
    rw [Finset.mul_sum]
    refine Finset.sum_congr rfl fun r _ => ?_
    simp only [Equiv.coe_addRight, sub_sub, add_sub_cancel_right]
    rw [ph_angle_add, ph_angle_add, smul_mul_smul_comm, smul_mul_smul_comm]
    congr 1
    ring
  have h2 : ∑ r, ∑ n : Fin N, ∑ r1, ∑ r2, (E.ph (angle r k) * E.at N σ m (((n : ℕ) : ℚ) + 1 / 2)) • (A r1 0 * B r2 n * C (r - r1 - r2) 0) =
      ∑ r1, ∑ r2, ∑ n : Fin N, ∑ r, (E.ph (angle r k) * E.at N σ m (((n : ℕ) : ℚ) + 1 / 2)) • (A r1 0 * B r2 n * C (r - r1 - r2) 0) := by
    rw [Finset.sum_comm]
    have : ∀ n : Fin N, ∑ r, ∑ r1, ∑ r2, (E.ph (angle r k) * E.at N σ m (((n : ℕ) : ℚ) + 1 / 2)) • (A r1 0 * B r2 n * C (r - r1 - r2) 0) =
        ∑ r1, ∑ r2, ∑ r, (E.ph (angle r k) * E.at N σ m (((n : ℕ) : ℚ) + 1 / 2)) • (A r1 0 * B r2 n * C (r - r1 - r2) 0) := by
      intro n
      rw [Finset.sum_comm]
      exact Finset.sum_congr rfl fun r1 _ => Finset.sum_comm
    rw [Finset.sum_congr rfl fun n _ => this n, Finset.sum_comm]
    exact Finset.sum_congr rfl fun r1 _ => Finset.sum_comm
  rw [h2]
  conv_rhs => rw [show fftn E A k 0 = ∑ r1, E.ph (angle r1 k) • A r1 0 from rfl]
  rw [Finset.sum_mul, Finset.sum_mul]
  refine Finset.sum_congr rfl fun r1 _ => ?_
  rw [Finset.mul_sum, Finset.sum_mul]
  refine Finset.sum_congr rfl fun r2 _ => ?_
  rw [Finset.mul_sum, Finset.sum_mul]
  exact Finset.sum_congr rfl fun n _ => h1 r1 r2 n

end

end Feyn
