import Verif.Spec.Unbiased
import Verif.Proof.StatMoves
import Mathlib.Data.Int.ModEq
import Mathlib.Order.Interval.Finset.Nat

/-! Counting the pairs of times of a bin. -/

namespace Feyn

set_option linter.unusedSectionVars false

section
variable {N bins t : ℕ}

/-- Number of time differences in a bin, without its lower border. -/
def offOne (N bins t : ℕ) : ℕ := ((Finset.range N).filter fun m => ¬ N ∣ m * bins ∧ m * bins / N = t).card

theorem offOne_eq (hb : 0 < bins) (hN : 0 < N) (ht : t < bins) : offOne N bins t = ((t + 1) * N - 1) / bins - t * N / bins := by
  have : (Finset.range N).filter (fun m => ¬ N ∣ m * bins ∧ m * bins / N = t) = Finset.Ioc (t * N / bins) (((t + 1) * N - 1) / bins) := by
    ext m
    simp only [Finset.mem_filter, Finset.mem_range, Finset.mem_Ioc]
    rw [Nat.div_lt_iff_lt_mul hb, Nat.le_div_iff_mul_le hb, Nat.div_eq_iff hN]
    constructor
    · rintro ⟨h1, h2, h3, h4⟩
      refine ⟨lt_of_le_of_ne (by linarith) fun e => h2 ⟨t, by rw [← e]; ring⟩, ?_⟩
      have : (t + 1) * N = N * t + N := by ring
      have : N * t = t * N := by ring
      omega
    · rintro ⟨h1, h2⟩
      have h3 : (t + 1) * N = t * N + N := by ring
      refine ⟨?_, ?_, by linarith, by omega⟩
      · have : m * bins < bins * N := by
          have : (t + 1) * N ≤ bins * N := Nat.mul_le_mul_right _ ht
          omega
        rw [mul_comm] at this
        exact lt_of_mul_lt_mul_left this (Nat.zero_le _)
      · rintro ⟨k, hk⟩
        have k1 : t < k := by
          by_contra q
          have : N * k ≤ N * t := Nat.mul_le_mul_left _ (by omega)
          have : N * t = t * N := by ring
          omega
        have : N * (t + 1) ≤ N * k := Nat.mul_le_mul_left _ k1
        have : N * (t + 1) = (t + 1) * N := by ring
        omega
  rw [offOne, this, Nat.card_Ioc]

theorem offOne_bounds (hb : 0 < bins) (hN : 0 < N) (ht : t < bins) : N ≤ offOne N bins t * bins + bins ∧ offOne N bins t * bins ≤ N + bins := by
  rw [offOne_eq hb hN ht]
  have h1 := Nat.div_add_mod ((t + 1) * N - 1) bins
  have h2 := Nat.mod_lt ((t + 1) * N - 1) hb
  have h3 := Nat.div_add_mod (t * N) bins
  have h4 := Nat.mod_lt (t * N) hb
  have h5 : (t + 1) * N = t * N + N := by ring
  set a := ((t + 1) * N - 1) / bins
  set b := t * N / bins
  have hab : b ≤ a := Nat.div_le_div_right (by omega)
  obtain ⟨c, hc⟩ := Nat.exists_eq_add_of_le hab
  rw [hc] at h1
  rw [hc, Nat.add_sub_cancel_left]
  have h6 : bins * (b + c) = bins * b + c * bins := by ring
  omega

/-- The differences of a fixed time from all times are all differences. -/
theorem shift_card (hN : 0 < N) (p : ℕ → Prop) [DecidablePred p] {n : ℕ} (hn : n < N) :
    ((Finset.range N).filter fun k => p ((k + N - n) % N)).card = ((Finset.range N).filter p).card := by
  refine Finset.card_bij (fun k _ => (k + N - n) % N) ?_ ?_ ?_
  · intro k hk
    simp only [Finset.mem_filter, Finset.mem_range] at hk ⊢
    exact ⟨Nat.mod_lt _ hN, hk.2⟩
  · intro k hk k' hk' e
    simp only [Finset.mem_filter, Finset.mem_range] at hk hk' e
    have : (k + N - n) ≡ (k' + N - n) [MOD N] := e
    have h : ((k + N - n) + n) ≡ ((k' + N - n) + n) [MOD N] := this.add_right n
    rw [show k + N - n + n = k + N by omega, show k' + N - n + n = k' + N by omega] at h
    have h := h.add_right_cancel' N
    rw [Nat.ModEq, Nat.mod_eq_of_lt hk.1, Nat.mod_eq_of_lt hk'.1] at h
    exact h
  · intro m hm
    simp only [Finset.mem_filter, Finset.mem_range] at hm
    have e : ((m + n) % N + N - n) % N = m := by
      have h1 : ((m + n) % N + N - n) + n ≡ m + n [MOD N] := by
        rw [show (m + n) % N + N - n + n = (m + n) % N + N by omega]
        unfold Nat.ModEq
        rw [Nat.add_mod_right, Nat.mod_mod]
      have h2 := h1.add_right_cancel' n
      rw [Nat.ModEq, Nat.mod_eq_of_lt hm.1] at h2
      exact h2
    exact ⟨(m + n) % N, by simp only [Finset.mem_filter, Finset.mem_range]; exact ⟨Nat.mod_lt _ hN, by rw [e]; exact hm.2⟩, e⟩

end

section
variable {Q F : Type} [Field Q] [LinearOrder Q] [IsStrictOrderedRing Q] [FloorRing Q] [Field F]
variable {P : Params Q F} {bins : ℕ}

theorem bin_nat (hP : P.Wf) (hb : 0 < bins) {t n1 n2 : ℕ} (h1 : n1 < 4294967296) (h2 : n2 < 4294967296) :
    (OffBins P.beta bins ((n1 : Q) / 4294967296 * P.beta) ((n2 : Q) / 4294967296 * P.beta) ∧
      pyTauIndex P.beta bins ((n1 : Q) / 4294967296 * P.beta) ((n2 : Q) / 4294967296 * P.beta) = t) ↔
    ¬ 4294967296 ∣ ((n2 + 4294967296 - n1) % 4294967296) * bins ∧ ((n2 + 4294967296 - n1) % 4294967296) * bins / 4294967296 = t := by
  have hβ := hP.beta_pos
  have hb' : (0 : Q) < bins := by exact_mod_cast hb
  have hx : ((n2 : Q) / 4294967296 * P.beta - (n1 : Q) / 4294967296 * P.beta) * (1 / (P.beta / bins)) = ((((n2 : ℤ) - n1) * bins : ℤ) : Q) / ((4294967296 : ℤ) : Q) := by
    push_cast
    field_simp
  have hfl : ⌊((n2 : Q) / 4294967296 * P.beta - (n1 : Q) / 4294967296 * P.beta) * (1 / (P.beta / bins))⌋ = (((n2 : ℤ) - n1) * bins) / 4294967296 := by
    rw [hx, Int.floor_div_cast_of_nonneg (by norm_num), Int.floor_intCast]
  have hoff : OffBins P.beta bins ((n1 : Q) / 4294967296 * P.beta) ((n2 : Q) / 4294967296 * P.beta) ↔ ¬ (4294967296 : ℤ) ∣ ((n2 : ℤ) - n1) * bins := by
    unfold OffBins
    rw [← not_exists_not, not_iff_not]
    simp only [not_not]
    refine exists_congr fun k => ?_
    have : (n2 : Q) / 4294967296 * P.beta - (n1 : Q) / 4294967296 * P.beta = k * (P.beta / bins) ↔ (((n2 : ℤ) - n1) * bins : ℤ) = ((4294967296 * k : ℤ) : Q) := by
      push_cast
      field_simp
    rw [this]
    exact_mod_cast Iff.rfl
  have hge : (n2 : Q) / 4294967296 * P.beta - (n1 : Q) / 4294967296 * P.beta ≥ 0 ↔ n1 ≤ n2 := by
    rw [ge_iff_le, sub_nonneg, mul_le_mul_iff_left₀ hβ, div_le_div_iff_of_pos_right (by norm_num), Nat.cast_le]
  unfold pyTauIndex
  rw [hoff, hfl]
  by_cases c : n1 ≤ n2
  · rw [if_pos (hge.2 c)]
    obtain ⟨m, rfl⟩ := Nat.exists_eq_add_of_le c
    rw [show (n1 + m + 4294967296 - n1) % 4294967296 = m by omega]
    push_cast
    rw [add_sub_cancel_left]
    exact_mod_cast Iff.rfl
  · rw [if_neg (fun q => c (hge.1 q))]
    obtain ⟨m, rfl⟩ := Nat.exists_eq_add_of_le (not_le.1 c).le
    have hm : (n2 + 4294967296 - (n2 + m)) % 4294967296 = 4294967296 - m := by omega
    rw [hm]
    have e : (((4294967296 - m : ℕ) : ℤ)) = 4294967296 - m := by omega
    have e1 : ((n2 : ℤ) - ((n2 + m : ℕ) : ℤ)) * bins = ((4294967296 - m : ℕ) : ℤ) * bins + 4294967296 * (-bins) := by
      rw [e]
      push_cast
      ring
    rw [e1, Int.add_mul_ediv_left _ _ (by norm_num), (Int.dvd_add_left (Dvd.intro _ rfl))]
    rw [neg_add_cancel_right]
    exact_mod_cast Iff.rfl

theorem offPairs_eq (hP : P.Wf) (hb : 0 < bins) (t : ℕ) : offPairs P bins t = 4294967296 * offOne 4294967296 bins t := by
  classical
  have hβ := hP.beta_pos
  have inj : Set.InjOn (fun n : ℕ => (n : Q) / 4294967296 * P.beta) (Finset.range 4294967296 : Finset ℕ) := by
    intro a _ b _ e
    have e : (a : Q) / 4294967296 * P.beta = (b : Q) / 4294967296 * P.beta := e
    have : (a : Q) = b := by field_simp at e; exact e
    exact_mod_cast this
  unfold offPairs
  rw [Finset.card_filter, Finset.sum_product]
  unfold timeGrid
  rw [Finset.sum_image inj]
  have : ∀ n1 ∈ Finset.range 4294967296, (∑ t2 ∈ (Finset.range 4294967296).image (fun n : ℕ => (n : Q) / 4294967296 * P.beta),
      if OffBins P.beta bins ((n1 : Q) / 4294967296 * P.beta) t2 ∧ pyTauIndex P.beta bins ((n1 : Q) / 4294967296 * P.beta) t2 = t then 1 else 0) =
      offOne 4294967296 bins t := by
    intro n1 hn1
    rw [Finset.sum_image inj]
    have hn1 := Finset.mem_range.1 hn1
    rw [← Finset.card_filter, offOne, ← shift_card (by norm_num) (fun m => ¬ 4294967296 ∣ m * bins ∧ m * bins / 4294967296 = t) hn1]
    refine congrArg _ (Finset.filter_congr fun n2 hn2 => ?_)
    exact bin_nat hP hb hn1 (Finset.mem_range.1 hn2)
  rw [Finset.sum_congr rfl this, Finset.sum_const, Finset.card_range, smul_eq_mul]

/-- Nearly all pairs of times are off the borders: the share of the pairs of a bin is one over the number of bins, up to one part in 2^32. -/
theorem offPairs_share (hP : P.Wf) (hb : 0 < bins) {t : ℤ} (h0 : 0 ≤ t) (ht : t < bins) :
    |(bins : Q) * offPairs P bins t / 4294967296 ^ 2 - 1| ≤ (bins : Q) / 4294967296 := by
  lift t to ℕ using h0
  obtain ⟨b1, b2⟩ := offOne_bounds (N := 4294967296) hb (by norm_num) (by exact_mod_cast ht)
  rw [offPairs_eq hP hb]
  have c1 : (4294967296 : Q) ≤ offOne 4294967296 bins t * bins + bins := by exact_mod_cast b1
  have c2 : (offOne 4294967296 bins t : Q) * bins ≤ 4294967296 + bins := by exact_mod_cast b2
  have e : (bins : Q) * ((4294967296 * offOne 4294967296 bins t : ℕ) : Q) / 4294967296 ^ 2 - 1 = ((offOne 4294967296 bins t : Q) * bins - 4294967296) / 4294967296 := by
    push_cast
    field_simp
  rw [e, abs_le, le_div_iff₀ (by norm_num), div_le_div_iff_of_pos_right (by norm_num), neg_mul, div_mul_cancel₀ _ (by norm_num)]
  constructor <;> linarith

end
end Feyn
