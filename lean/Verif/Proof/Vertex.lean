import Verif.Proof.Fourier
import Verif.Spec.Vertex

/-!
# Convolutions
-/

namespace Feyn
set_option linter.unusedSectionVars false

section
variable {F : Type} [Field F] [CharZero F] {L : Fin 2 → ℕ} {N : ℕ}

/-- A transform turns a convolution into a product. -/
theorem conv_of_kernel {X Y : Type} [Fintype X] [Fintype Y] [DecidableEq X] (K : Y → X → F) (K' : X → Y → F)
    (h : ∀ x x', ∑ y, K' x y * K y x' = if x' = x then 1 else 0) (sub : X → X → X) (hb : ∀ y, Function.Bijective fun x => sub x y)
    (hs : ∀ x y k, K k x = K k (sub x y) * K k y) (w f : X → F) (x : X) :
    ∑ k, K' x k * ((∑ a, K k a * w a) * ∑ y, K k y * f y) = ∑ y, w (sub x y) * f y := by
  have e : ∀ k, (∑ a, K k a * w a) * ∑ y, K k y * f y = ∑ x', K k x' * ∑ y, w (sub x' y) * f y := by
    intro k
    simp only [Finset.mul_sum]
    rw [Finset.sum_comm]
    refine Finset.sum_congr rfl fun y _ => ?_
    rw [Finset.sum_mul, ← Fintype.sum_bijective _ (hb y) (fun x' => K k (sub x' y) * w (sub x' y) * (K k y * f y)) _ fun _ => rfl]
    refine Finset.sum_congr rfl fun x' _ => ?_
    rw [hs x' y k]
    ring
  simp only [e]
  have := kernel_inv K K' h (fun x' => ∑ y, w (sub x' y) * f y) x
  simpa only [smul_eq_mul] using this

/-! ### Kernel of space and time -/

/-- Space and time. -/
abbrev ST (L : Fin 2 → ℕ) (N : ℕ) := Vec2 L × Fin N

/-- Kernel of the transform. -/
def stK (E : Phase F) (k x : ST L N) : F := E.ph (angle x.1 k.1) * E.ph (2 * ((x.2 : ℕ) * (k.2 : ℕ)) / N)

/-- Kernel of the inverse transform. -/
def stK' (E : Phase F) (x k : ST L N) : F := ((∏ i, (L i : F)) * N)⁻¹ * (E.ph (-angle x.1 k.1) * E.ph (-(2 * ((x.2 : ℕ) * (k.2 : ℕ)) / N)))

theorem fin_sub_mod (x y : Fin N) : ∃ z : ℤ, (((x - y : Fin N) : ℕ) : ℤ) = (x : ℤ) - y + N * z := by
  have hx := x.2
  have hy := y.2
  rw [Fin.val_sub]
  refine ⟨1 - ((N - (y : ℕ) + x) / N : ℕ), ?_⟩
  have h := Nat.div_add_mod (N - (y : ℕ) + x) N
  zify [hy.le] at h ⊢
  linarith

theorem ph_period (E : Phase F) (hN : 0 < N) (z m : ℤ) : E.ph (2 * (((N : ℤ) * z : ℤ) * (m : ℚ)) / N) = 1 := by
  have hN' : (N : ℚ) ≠ 0 := by exact_mod_cast hN.ne'
  rw [E.one_iff]
  refine ⟨z * m, ?_⟩
  push_cast
  field_simp

theorem ph_sub (E : Phase F) (x y m : Fin N) : E.ph (2 * ((x : ℕ) * (m : ℕ)) / N) = E.ph (2 * (((x - y : Fin N) : ℕ) * (m : ℕ)) / N) * E.ph (2 * ((y : ℕ) * (m : ℕ)) / N) := by
  obtain ⟨z, hz⟩ := fin_sub_mod x y
  have hz' : (((x - y : Fin N) : ℕ) : ℚ) = (x : ℕ) - (y : ℕ) + ((N : ℤ) * z : ℤ) := by exact_mod_cast congrArg (Int.cast (R := ℚ)) hz
  rw [hz', ← E.add]
  have : (2 * (((x : ℕ) - (y : ℕ) + ((N : ℤ) * z : ℤ)) * (m : ℕ)) / N + 2 * ((y : ℕ) * (m : ℕ)) / N : ℚ) = 2 * ((x : ℕ) * (m : ℕ)) / N + 2 * (((N : ℤ) * z : ℤ) * ((m : ℕ) : ℤ)) / N := by
    push_cast
    ring
  rw [this, E.add, ph_period E (lt_of_le_of_lt (Nat.zero_le _) x.2), mul_one]

theorem ph_angle_sub (E : Phase F) (x y k : Vec2 L) : E.ph (angle x k) = E.ph (angle (x - y) k) * E.ph (angle y k) := by
  unfold angle
  rw [E.sum, E.sum, E.sum, ← Finset.prod_mul_distrib]
  exact Finset.prod_congr rfl fun i _ => ph_sub E (x i) (y i) (k i)

theorem fin_sub_bij (y : Fin N) : Function.Bijective fun x : Fin N => x - y := by
  rw [Fintype.bijective_iff_injective_and_card]
  refine ⟨?_, rfl⟩
  intro a b h
  obtain ⟨z, hz⟩ := fin_sub_mod a y
  obtain ⟨z', hz'⟩ := fin_sub_mod b y
  simp only at h
  rw [h, hz'] at hz
  have := a.2
  have := b.2
  apply Fin.ext
  have hd : ((a : ℕ) : ℤ) - (b : ℕ) = N * (z' - z) := by linarith
  have hlt : |((a : ℕ) : ℤ) - (b : ℕ)| < N := fin_abs_sub a b
  have : ((a : ℕ) : ℤ) - (b : ℕ) = 0 := Int.eq_zero_of_abs_lt_dvd ⟨_, hd⟩ hlt
  omega

theorem st_sub_bij (y : ST L N) : Function.Bijective fun x : ST L N => x - y := by
  rw [Fintype.bijective_iff_injective_and_card]
  refine ⟨?_, rfl⟩
  rintro ⟨a, t⟩ ⟨b, u⟩ h
  simp only [Prod.ext_iff, Prod.fst_sub, Prod.snd_sub] at h
  refine Prod.ext ?_ ((fin_sub_bij y.2).1 h.2)
  funext i
  exact (fin_sub_bij (y.1 i)).1 (congrFun h.1 i)

theorem st_orth (E : Phase F) (hL : ∀ i, 0 < L i) (hN : 0 < N) (x x' : ST L N) : ∑ k, stK' E x k * stK E k x' = if x' = x then 1 else 0 := by
  have hN' : (N : F) ≠ 0 := by exact_mod_cast hN.ne'
  have e : ∀ k : ST L N, stK' E x k * stK E k x' = ((∏ i, (L i : F))⁻¹ * E.ph (angle x'.1 k.1 - angle x.1 k.1)) *
      ((N : F)⁻¹ * E.ph (2 * (((k.2 : ℕ) : ℚ) * ((((x'.2 : ℕ) : ℤ) - ((x.2 : ℕ) : ℤ) : ℤ) : ℚ)) / N)) := by
    intro k
    unfold stK stK'
    have h1 : E.ph (angle x'.1 k.1 - angle x.1 k.1) = E.ph (angle x'.1 k.1) * E.ph (-angle x.1 k.1) := by rw [← E.add, sub_eq_add_neg]
    have h2 : E.ph (2 * (((k.2 : ℕ) : ℚ) * ((((x'.2 : ℕ) : ℤ) - ((x.2 : ℕ) : ℤ) : ℤ) : ℚ)) / N) =
        E.ph (2 * ((x'.2 : ℕ) * (k.2 : ℕ)) / N) * E.ph (-(2 * ((x.2 : ℕ) * (k.2 : ℕ)) / N)) := by
      rw [← E.add]
      congr 1
      push_cast
      ring
    rw [h1, h2, mul_inv]
    ring
  simp only [e]
  rw [Fintype.sum_prod_type]
  simp only [← Finset.mul_sum, ← Finset.sum_mul]
  rw [E.orth hN _ (fin_abs_sub _ _), E.orthn hL]
  by_cases h1 : x'.1 = x.1
  · by_cases h2 : x'.2 = x.2
    · have : x' = x := Prod.ext h1 h2
      subst this
      simp [hN']
    · have : ((x'.2 : ℕ) : ℤ) - ((x.2 : ℕ) : ℤ) ≠ 0 := fun h => h2 (Fin.ext (by omega))
      have : x' ≠ x := fun h => h2 (by rw [h])
      simp [*]
  · have : x' ≠ x := fun h => h1 (by rw [h])
    simp [h1, this]

theorem st_conv (E : Phase F) (hL : ∀ i, 0 < L i) (hN : 0 < N) (w f : ST L N → F) (x : ST L N) :
    ∑ k, stK' E x k * ((∑ a, stK E k a * w a) * ∑ y, stK E k y * f y) = ∑ y, w (x - y) * f y := by
  refine conv_of_kernel (stK E) (stK' E) (st_orth E hL hN) (fun x y => x - y) st_sub_bij ?_ w f x
  intro x y k
  unfold stK
  rw [ph_angle_sub E x.1 y.1 k.1, ph_sub E x.2 y.2 k.2]
  simp only [Prod.fst_sub, Prod.snd_sub]
  ring

/-! ### The transforms of the program -/

theorem fftW_eq (E : Phase F) (w : Vec2 L → Fin N → F) (k : ST L N) : fftW E w k.1 k.2 = ∑ a : ST L N, stK E k a * w a.1 a.2 := by
  unfold fftW
  rw [Fintype.sum_prod_type]
  rfl

theorem fftΓ_eq (E : Phase F) (Γ : Pair L N F) (k1 k2 : ST L N) :
    fftΓ E Γ k1.1 k2.1 k1.2 k2.2 = ∑ x1 : ST L N, stK E k1 x1 * ∑ x2 : ST L N, stK E k2 x2 * Γ x1.1 x2.1 x1.2 x2.2 := by
  unfold fftΓ stK
  simp only [Fintype.sum_prod_type, Finset.mul_sum]
  refine Finset.sum_congr rfl fun r1 _ => ?_
  rw [Finset.sum_comm]
  refine Finset.sum_congr rfl fun t1 _ => ?_
  refine Finset.sum_congr rfl fun r2 _ => ?_
  refine Finset.sum_congr rfl fun t2 _ => ?_
  ring

theorem ifftΓ_eq (E : Phase F) (Γ : Pair L N F) (x1 x2 : ST L N) :
    ifftΓ E Γ x1.1 x2.1 x1.2 x2.2 = ∑ k1 : ST L N, stK' E x1 k1 * ∑ k2 : ST L N, stK' E x2 k2 * Γ k1.1 k2.1 k1.2 k2.2 := by
  unfold ifftΓ stK'
  simp only [Fintype.sum_prod_type, Finset.mul_sum]
  refine Finset.sum_congr rfl fun r1 _ => ?_
  rw [Finset.sum_comm]
  refine Finset.sum_congr rfl fun t1 _ => ?_
  refine Finset.sum_congr rfl fun r2 _ => ?_
  refine Finset.sum_congr rfl fun t2 _ => ?_
  rw [mul_inv, mul_inv, mul_inv]
  ring

theorem swap_sums {X Y : Type} [Fintype X] [Fintype Y] (p : X → F) (c A : F) (q : Y → F) (f : X → Y → F) :
    ∑ x, p x * (c * (A * ∑ y, q y * f x y)) = c * (A * ∑ y, q y * ∑ x, p x * f x y) := by
  simp only [Finset.mul_sum]
  rw [Finset.sum_comm]
  exact Finset.sum_congr rfl fun _ _ => Finset.sum_congr rfl fun _ _ => by ring

/-- `AddTwoW_To_GammaW` as a double convolution. -/
theorem addTwoW_conv (E : Phase F) (hL : ∀ i, 0 < L i) {n : ℕ} (hn : 0 < n) (beta : F) (W0 : Bool × Bool → Bool × Bool → Vec2 L → F) (W : WFun L N F) (Γ : Bool → Pair L n F) (k : Bool)
    (x1 x2 : ST L n) : addTwoW E beta W0 W Γ k x1.1 x2.1 x1.2 x2.2 = -((if k then 4 else 1) *
      ∑ y1 : ST L n, ∑ y2 : ST L n, wTot beta n W0 W (true, true) (true, true) (x1 - y1).1 (x1 - y1).2 * Γ k y1.1 y2.1 y1.2 y2.2 * wTot beta n W0 W (true, true) (true, true) (x2 - y2).1 (x2 - y2).2) := by
  unfold addTwoW
  rw [ifftΓ_eq]
  generalize wTot beta n W0 W (true, true) (true, true) = w
  have c : ((if k then 2 else 1 : F)) * (if k then 2 else 1) = if k then 4 else 1 := by cases k <;> norm_num
  generalize (if k then 2 else 1 : F) = c2 at c ⊢
  generalize (if k then 4 else 1 : F) = c4 at c ⊢
  have e : ∀ k1 k2 : ST L n, fftΓ E (Γ k) k1.1 k2.1 k1.2 k2.2 * (fftW E w k1.1 k1.2 * c2) * (fftW E w k2.1 k2.2 * c2) =
      c4 * ((∑ a, stK E k1 a * w a.1 a.2) * ∑ y1, stK E k1 y1 * ((∑ a, stK E k2 a * w a.1 a.2) * ∑ y2, stK E k2 y2 * Γ k y1.1 y2.1 y1.2 y2.2)) := by
    intro k1 k2
    rw [fftΓ_eq, fftW_eq, fftW_eq, ← c]
    generalize (∑ a, stK E k1 a * w a.1 a.2) = A
    generalize (∑ a, stK E k2 a * w a.1 a.2) = B
    have : ∑ y1 : ST L n, stK E k1 y1 * (B * ∑ y2, stK E k2 y2 * Γ k y1.1 y2.1 y1.2 y2.2) = B * ∑ y1 : ST L n, stK E k1 y1 * ∑ y2, stK E k2 y2 * Γ k y1.1 y2.1 y1.2 y2.2 := by
      rw [Finset.mul_sum]
      exact Finset.sum_congr rfl fun _ _ => by ring
    rw [this]
    ring
  have inner : ∀ k1 : ST L n, ∑ k2 : ST L n, stK' E x2 k2 * (fftΓ E (Γ k) k1.1 k2.1 k1.2 k2.2 * (fftW E w k1.1 k1.2 * c2) * (fftW E w k2.1 k2.2 * c2)) =
      c4 * ((∑ a, stK E k1 a * w a.1 a.2) * ∑ y1, stK E k1 y1 * ∑ y2 : ST L n, w (x2 - y2).1 (x2 - y2).2 * Γ k y1.1 y2.1 y1.2 y2.2) := by
    intro k1
    simp only [e]
    have h := fun y1 : ST L n => st_conv E hL hn (fun a => w a.1 a.2) (fun y2 => Γ k y1.1 y2.1 y1.2 y2.2) x2
    simp only [← h]
    exact swap_sums _ _ _ _ _
  have all : ∑ k1 : ST L n, stK' E x1 k1 * ∑ k2 : ST L n, stK' E x2 k2 * (fftΓ E (Γ k) k1.1 k2.1 k1.2 k2.2 * (fftW E w k1.1 k1.2 * c2) * (fftW E w k2.1 k2.2 * c2)) =
      c4 * ∑ y1 : ST L n, ∑ y2 : ST L n, w (x1 - y1).1 (x1 - y1).2 * Γ k y1.1 y2.1 y1.2 y2.2 * w (x2 - y2).1 (x2 - y2).2 := by
    simp only [inner]
    have h := st_conv E hL hn (fun a => w a.1 a.2) (fun y1 => ∑ y2 : ST L n, w (x2 - y2).1 (x2 - y2).2 * Γ k y1.1 y2.1 y1.2 y2.2) x1
    calc _ = c4 * ∑ k1 : ST L n, stK' E x1 k1 * ((∑ a, stK E k1 a * w a.1 a.2) * ∑ y1, stK E k1 y1 * ∑ y2 : ST L n, w (x2 - y2).1 (x2 - y2).2 * Γ k y1.1 y2.1 y1.2 y2.2) := by
          rw [Finset.mul_sum]
          exact Finset.sum_congr rfl fun _ _ => by rw [mul_left_comm]
      _ = _ := by
          rw [h]
          congr 1
          refine Finset.sum_congr rfl fun y1 _ => ?_
          rw [Finset.mul_sum]
          exact Finset.sum_congr rfl fun y2 _ => by ring
  rw [all]
  ring

end

end Feyn
