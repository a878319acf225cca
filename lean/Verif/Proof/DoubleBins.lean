import Verif.Proof.Double
import Verif.Spec.Double

/-!
# Bins of times with double precision
-/

namespace Feyn

/-- Numbers far from the smallest ones. -/
theorem normal_of {x : ℚ} (h : (2 : ℚ) ^ (-1000 : ℤ) ≤ |x|) : (2 : ℚ) ^ (-1022 : ℤ) ≤ |x| :=
  le_trans (zpow_le_zpow_right₀ (by norm_num) (by norm_num)) h

theorem rnd_rel {x : ℚ} (h : (2 : ℚ) ^ (-1000 : ℤ) ≤ |x|) : ∃ e : ℚ, |e| ≤ 1 / 2 ^ 53 ∧ rnd x = x * (1 + e) := by
  have hx : 0 < |x| := lt_of_lt_of_le (by positivity) h
  have hx' : x ≠ 0 := abs_pos.1 hx
  refine ⟨(rnd x - x) / x, ?_, ?_⟩
  · rw [abs_div, div_le_iff₀ hx]
    exact (rnd_near (normal_of h)).trans (le_of_eq (by ring))
  · field_simp
    ring

section
variable {beta : ℚ} {bins : ℕ}

theorem Modest.beta_pos (h : Modest beta bins) : 0 < beta := lt_of_lt_of_le (by positivity) h.low

theorem Modest.bins_pos (h : Modest beta bins) : (0 : ℚ) < bins := by exact_mod_cast h.pos

theorem Modest.bins_one (h : Modest beta bins) : (1 : ℚ) ≤ bins := by exact_mod_cast h.pos

theorem Modest.bins_le (h : Modest beta bins) : (bins : ℚ) ≤ 2 ^ 31 := by
  have := h.bins
  exact_mod_cast (show bins ≤ 2 ^ 31 by omega)

theorem Modest.normal (h : Modest beta bins) {x : ℚ} (hx : beta / 2 ^ 40 ≤ |x|) : (2 : ℚ) ^ (-1000 : ℤ) ≤ |x| := by
  refine le_trans ?_ hx
  rw [le_div_iff₀ (by norm_num)]
  refine le_trans ?_ h.low
  rw [show ((2 : ℚ) ^ 40) = 2 ^ (40 : ℤ) by norm_num, ← zpow_add₀ (by norm_num)]
  exact zpow_le_zpow_right₀ (by norm_num) (by norm_num)

theorem urn_bounds (w : Word) : 0 ≤ urn ℚ w ∧ urn ℚ w ≤ 1 - 1 / 2 ^ 32 := by
  have := wordPlace_lt w
  rw [urn_wordPlace]
  constructor
  · positivity
  · rw [div_le_iff₀ (by norm_num)]
    have : (wordPlace w : ℚ) + 1 ≤ 4294967296 := by exact_mod_cast this
    norm_num
    linarith

/-- Times differ from the exact ones by a relative error. -/
theorem pickTauD_near (h : Modest beta bins) (w : Word) : |pickTauD beta w - urn ℚ w * beta| ≤ urn ℚ w * beta / 2 ^ 53 := by
  have hb := h.beta_pos
  unfold pickTauD
  rw [urnD_eq]
  by_cases h0 : wordPlace w = 0
  · rw [urn_wordPlace, h0]
    norm_num [rnd_zero]
  · have hu : 1 / 2 ^ 32 ≤ urn ℚ w := by
      rw [urn_wordPlace]
      have : (1 : ℚ) ≤ wordPlace w := by exact_mod_cast (show 1 ≤ wordPlace w by omega)
      norm_num
      linarith
    have hx : beta / 2 ^ 40 ≤ |urn ℚ w * beta| := by
      rw [abs_of_pos (by positivity)]
      have := mul_le_mul_of_nonneg_right hu hb.le
      norm_num at this ⊢
      linarith
    have := rnd_near (normal_of (h.normal hx))
    rwa [abs_of_pos (show 0 < urn ℚ w * beta by positivity)] at this

/-- The difference of two times. -/
theorem diffD (h : Modest beta bins) (w w' : Word) {v : ℚ} (hv : v = urn ℚ w' - urn ℚ w) {tau : ℚ} (ht : tau = rnd (pickTauD beta w' - pickTauD beta w)) :
    |tau - v * beta| ≤ 4 / 2 ^ 53 * beta ∧ (wordPlace w' = wordPlace w → tau = 0) ∧ (wordPlace w < wordPlace w' → beta / 2 ^ 33 ≤ tau) ∧
      (wordPlace w' < wordPlace w → tau ≤ - (beta / 2 ^ 33)) ∧ (wordPlace w < wordPlace w' → 1 / 2 ^ 32 ≤ v) ∧ (wordPlace w' < wordPlace w → v ≤ -(1 / 2 ^ 32)) ∧
      v ≤ 1 - 1 / 2 ^ 32 ∧ -(1 - 1 / 2 ^ 32) ≤ v := by
  have hb := h.beta_pos
  have h1 := pickTauD_near h w
  have h2 := pickTauD_near h w'
  have b1 := urn_bounds w
  have b2 := urn_bounds w'
  have u1 : urn ℚ w * beta / 2 ^ 53 ≤ beta / 2 ^ 53 := by
    have := mul_le_mul_of_nonneg_right (b1.2.trans (show (1 : ℚ) - 1 / 2 ^ 32 ≤ 1 by norm_num)) hb.le
    rw [one_mul] at this
    gcongr
  have u2 : urn ℚ w' * beta / 2 ^ 53 ≤ beta / 2 ^ 53 := by
    have := mul_le_mul_of_nonneg_right (b2.2.trans (show (1 : ℚ) - 1 / 2 ^ 32 ≤ 1 by norm_num)) hb.le
    rw [one_mul] at this
    gcongr
  have gt : wordPlace w < wordPlace w' → 1 / 2 ^ 32 ≤ v := by
    intro q
    have : (wordPlace w : ℚ) + 1 ≤ wordPlace w' := by exact_mod_cast q
    rw [hv, urn_wordPlace, urn_wordPlace]
    norm_num
    linarith
  have lt : wordPlace w' < wordPlace w → v ≤ -(1 / 2 ^ 32) := by
    intro q
    have : (wordPlace w' : ℚ) + 1 ≤ wordPlace w := by exact_mod_cast q
    rw [hv, urn_wordPlace, urn_wordPlace]
    norm_num
    linarith
  have vu : v ≤ 1 - 1 / 2 ^ 32 := by linarith [b1.1, b2.2]
  have vl : -(1 - 1 / 2 ^ 32) ≤ v := by linarith [b1.2, b2.1]
  have key : |pickTauD beta w' - pickTauD beta w - v * beta| ≤ 2 / 2 ^ 53 * beta := by
    rw [abs_le] at h1 h2 ⊢
    rw [hv, sub_mul]
    constructor <;> linarith [h1.1, h1.2, h2.1, h2.2]
  have vb : v * beta ≤ beta := by nlinarith
  have vb' : -beta ≤ v * beta := by nlinarith
  have near : beta / 2 ^ 40 ≤ |pickTauD beta w' - pickTauD beta w| → |tau - v * beta| ≤ 4 / 2 ^ 53 * beta := by
    intro q
    have h3 := rnd_near (normal_of (h.normal q))
    rw [← ht] at h3
    have h4 : |pickTauD beta w' - pickTauD beta w| ≤ 2 * beta := by
      rw [abs_le] at key ⊢
      norm_num at key
      constructor <;> linarith [key.1, key.2]
    have h5 : |tau - (pickTauD beta w' - pickTauD beta w)| ≤ 2 * beta / 2 ^ 53 := h3.trans (by gcongr)
    rw [abs_le] at key h5 ⊢
    constructor <;> linarith [key.1, key.2, h5.1, h5.2]
  have eq : wordPlace w' = wordPlace w → tau = 0 := by
    intro q
    have : pickTauD beta w' = pickTauD beta w := by
      unfold pickTauD
      rw [urnD_eq, urnD_eq, urn_wordPlace, urn_wordPlace, q]
    rw [ht, this, sub_self, rnd_zero]
  rcases lt_trichotomy (wordPlace w') (wordPlace w) with q | q | q
  · have hl := mul_le_mul_of_nonneg_right (lt q) hb.le
    have n := near (by
      rw [abs_le] at key
      rw [le_abs]
      right
      norm_num at key hl ⊢
      linarith [key.2])
    refine ⟨n, eq, fun q' => by omega, fun _ => ?_, gt, lt, vu, vl⟩
    rw [abs_le] at n
    norm_num at n hl ⊢
    linarith [n.2]
  · have e := eq q
    refine ⟨?_, eq, fun q' => by omega, fun q' => by omega, gt, lt, vu, vl⟩
    rw [e, hv, urn_wordPlace, urn_wordPlace, q, sub_self, zero_mul, sub_self, abs_zero]
    positivity
  · have hl := mul_le_mul_of_nonneg_right (gt q) hb.le
    have n := near (by
      rw [abs_le] at key
      rw [le_abs]
      left
      norm_num at key hl ⊢
      linarith [key.1])
    refine ⟨n, eq, fun _ => ?_, fun q' => by omega, gt, lt, vu, vl⟩
    rw [abs_le] at n
    norm_num at n hl ⊢
    linarith [n.1]

theorem Modest.ratio (h : Modest beta bins) : (2 : ℚ) ^ (-1000 : ℤ) ≤ |beta / bins| ∧ (2 : ℚ) ^ (-1000 : ℤ) ≤ |(bins : ℚ) / beta| ∧
    (2 : ℚ) ^ (-998 : ℤ) ≤ (bins : ℚ) / beta := by
  have hb := h.beta_pos
  have hn := h.bins_pos
  have h1 : (2 : ℚ) ^ (-998 : ℤ) ≤ (bins : ℚ) / beta := by
    rw [le_div_iff₀ hb]
    refine le_trans (mul_le_mul_of_nonneg_left h.high (by positivity)) ?_
    rw [← zpow_add₀ (by norm_num)]
    refine le_trans (b := (2 : ℚ) ^ (0 : ℤ)) (zpow_le_zpow_right₀ (by norm_num) (by norm_num)) ?_
    rw [zpow_zero]
    exact h.bins_one
  refine ⟨?_, ?_, h1⟩
  · rw [abs_of_pos (by positivity), le_div_iff₀ hn]
    refine le_trans (mul_le_mul_of_nonneg_left h.bins_le (by positivity)) ?_
    refine le_trans ?_ h.low
    rw [show ((2 : ℚ) ^ 31) = 2 ^ (31 : ℤ) by norm_num, ← zpow_add₀ (by norm_num)]
    exact zpow_le_zpow_right₀ (by norm_num) (by norm_num)
  · rw [abs_of_pos (by positivity)]
    exact le_trans (zpow_le_zpow_right₀ (by norm_num) (by norm_num)) h1

/-- The factor of `IndexMap`. -/
theorem dBetaInvD_near (h : Modest beta bins) : ∃ e : ℚ, |e| ≤ 3 / 2 ^ 53 ∧ rnd (1 / dBetaD beta bins) = bins / beta * (1 + e) := by
  have hb := h.beta_pos
  have hn := h.bins_pos
  obtain ⟨r1, r2, r3⟩ := h.ratio
  obtain ⟨e1, h1, e⟩ := rnd_rel r1
  rw [abs_le] at h1
  have p1 : 0 < 1 + e1 := by norm_num at h1 ⊢; linarith [h1.1]
  have e' : 1 / dBetaD beta bins = bins / beta / (1 + e1) := by
    unfold dBetaD
    rw [e]
    field_simp
  obtain ⟨e2, h2, e''⟩ := rnd_rel (x := 1 / dBetaD beta bins) (by
    rw [e', abs_of_pos (by positivity), le_div_iff₀ p1]
    refine le_trans (mul_le_mul_of_nonneg_left (show 1 + e1 ≤ 2 ^ (2 : ℤ) by norm_num at h1 ⊢; linarith [h1.2]) (by positivity)) ?_
    rw [← zpow_add₀ (by norm_num)]
    exact r3)
  refine ⟨(1 + e2) / (1 + e1) - 1, ?_, ?_⟩
  · rw [abs_le] at h2 ⊢
    have : (1 + e2) / (1 + e1) - 1 = (e2 - e1) / (1 + e1) := by field_simp; ring
    rw [this, le_div_iff₀ p1, div_le_iff₀ p1]
    norm_num at h1 h2 ⊢
    constructor <;> linarith [h1.1, h1.2, h2.1, h2.2]
  · rw [e'', e']
    field_simp
    ring

theorem binsOverD_near (h : Modest beta bins) : ∃ e : ℚ, |e| ≤ 3 / 2 ^ 53 ∧ rnd (bins / beta) = bins / beta * (1 + e) := by
  obtain ⟨e, h1, h2⟩ := rnd_rel h.ratio.2.1
  exact ⟨e, h1.trans (by norm_num), h2⟩

/-- The position of a time on the axis of the bins. -/
theorem positionD (h : Modest beta bins) {tau v inv e : ℚ} (hv : |v| ≤ 1) (ht : |tau - v * beta| ≤ 8 / 2 ^ 53 * beta) (hs : tau = 0 ∨ beta / 2 ^ 33 ≤ |tau|)
    (he : |e| ≤ 3 / 2 ^ 53) (hi : inv = bins / beta * (1 + e)) :
    |rnd (tau * inv) - v * bins| ≤ bins / 2 ^ 49 ∧ (0 ≤ tau → 0 ≤ rnd (tau * inv)) ∧ (tau < 0 → rnd (tau * inv) < 0) := by
  have hb := h.beta_pos
  have hn := h.bins_pos
  rcases hs with rfl | hs
  · rw [zero_mul, rnd_zero]
    refine ⟨?_, fun _ => le_refl _, fun q => absurd q (lt_irrefl _)⟩
    rw [zero_sub, abs_neg, abs_mul, abs_of_pos hb] at ht
    have := le_of_mul_le_mul_right ht hb
    rw [zero_sub, abs_neg, abs_mul, abs_of_pos hn]
    have := mul_le_mul_of_nonneg_right this hn.le
    norm_num at this ⊢
    linarith
  · have hinv : tau * inv = tau / beta * bins * (1 + e) := by rw [hi]; ring
    have hx : |tau / beta - v| ≤ 8 / 2 ^ 53 := by
      have : tau / beta - v = (tau - v * beta) / beta := by field_simp
      rw [this, abs_div, abs_of_pos hb, div_le_iff₀ hb]
      exact ht
    have hs' : 1 / 2 ^ 33 ≤ |tau / beta| := by
      rw [abs_div, abs_of_pos hb, le_div_iff₀ hb]
      exact le_trans (le_of_eq (by ring)) hs
    have sg : 0 ≤ tau → 0 ≤ tau / beta := fun q => by positivity
    have sg' : tau < 0 → tau / beta < 0 := fun q => div_neg_of_neg_of_pos q hb
    generalize tau / beta = x at hinv hx hs' sg sg'
    rw [hinv]
    have he' := abs_le.1 he
    have p : 0 < 1 + e := by norm_num at he' ⊢; linarith [he'.1]
    obtain ⟨d, hd, er⟩ := rnd_rel (x := x * bins * (1 + e)) (by
      rw [abs_mul, abs_mul, abs_of_pos hn, abs_of_pos p]
      have h1 : (1 : ℚ) / 2 ^ 33 * 1 ≤ |x| * bins := mul_le_mul hs' h.bins_one (by norm_num) (abs_nonneg _)
      have h2 : (1 : ℚ) / 2 ^ 33 * 1 * (1 / 2) ≤ |x| * bins * (1 + e) :=
        mul_le_mul h1 (by norm_num at he' ⊢; linarith [he'.1]) (by norm_num) (by positivity)
      refine le_trans ?_ h2
      rw [show (1 : ℚ) / 2 ^ 33 * 1 * (1 / 2) = 2 ^ (-34 : ℤ) by norm_num]
      exact zpow_le_zpow_right₀ (by norm_num) (by norm_num))
    rw [er]
    have hd' := abs_le.1 hd
    have pd : 0 < 1 + d := by norm_num at hd' ⊢; linarith [hd'.1]
    refine ⟨?_, fun q => ?_, fun q => ?_⟩
    · have c : |x * (1 + e) * (1 + d) - v| ≤ 1 / 2 ^ 49 := by
        have c1 : |(1 + e) * (1 + d) - 1| ≤ 5 / 2 ^ 53 := by
          have : (1 + e) * (1 + d) - 1 = e + d + e * d := by ring
          rw [this]
          refine (abs_add_three _ _ _).trans ?_
          rw [abs_mul]
          have := mul_le_mul he hd (abs_nonneg _) (by norm_num)
          norm_num at this he hd ⊢
          linarith
        have c3 : x * (1 + e) * (1 + d) - v = x * ((1 + e) * (1 + d) - 1) + (x - v) := by ring
        rw [c3]
        have c4 : |x| ≤ 1 + 8 / 2 ^ 53 := by
          have := abs_sub_abs_le_abs_sub x v
          linarith
        refine (abs_add_le _ _).trans ?_
        rw [abs_mul]
        have := mul_le_mul c4 c1 (abs_nonneg _) (by norm_num)
        norm_num at this hx ⊢
        linarith
      have : x * bins * (1 + e) * (1 + d) - v * bins = (x * (1 + e) * (1 + d) - v) * bins := by ring
      rw [this, abs_mul, abs_of_pos hn]
      refine (mul_le_mul_of_nonneg_right c hn.le).trans (le_of_eq (by ring))
    · have := sg q
      positivity
    · have := sg' q
      have : x * bins < 0 := mul_neg_of_neg_of_pos this hn
      exact mul_neg_of_neg_of_pos (mul_neg_of_neg_of_pos this p) pd

end
end Feyn
