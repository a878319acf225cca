import Verif.Proof.DoubleRound
import Verif.Props.Demo

/-!
# Double precision (C92)
-/

namespace Feyn

/-- **C92, rounding.** `rnd x` is a double, no double is nearer to `x`, and if another one is as near then `rnd x` is the even one of the two. -/
theorem C92_rounding (x : ℚ) : IsDouble (rnd x) ∧ ∀ y, IsDouble y → |rnd x - x| ≤ |y - x| ∧
    (|y - x| = |rnd x - x| → y ≠ rnd x → ∃ n k : ℤ, rnd x = 2 * n * 2 ^ k ∧ |y - rnd x| = 2 ^ k) := by
  refine ⟨rnd_isDouble x, fun y hy => ?_⟩
  rcases double_cases x hy with ⟨m, rfl⟩ | h
  · obtain ⟨h1, h2⟩ := rnd_multiple x m
    exact ⟨h1, fun a b => (h2 a b).imp fun n hn => ⟨_, hn⟩⟩
  · exact ⟨h.le, fun a => absurd a.symm h.ne⟩

/-- **C92, random numbers.** `urn` is exact in double precision. -/
theorem C92_urn (w : Word) : urnD w = urn ℚ w := urnD_eq w

/-- **C92, choice.** The rounded sums of the probabilities choose, for every word of the generator, the update that the exact ones choose; one is always chosen. -/
theorem C92_select {Q F : Type} [Field Q] [LinearOrder Q] [IsStrictOrderedRing Q] [Field F] (P : Params Q F) (w : Word) :
    selectOpD P w = selectOp P (urn Q w) ∧ ∃ op, selectOpD P w = some op := by
  have h1 : selectIdxD (numOps P) (urnD w) = some (wordPlace w * numOps P / 4294967296) :=
    selectIdxD_eq (by unfold numOps; split <;> rfl) (by unfold numOps; split <;> norm_num) w
  have e : selectOpD P w = selectOp P (urn Q w) := by
    unfold selectOpD selectOp
    rw [h1, selectIdx_wordPlace]
  refine ⟨e, ?_⟩
  unfold selectOpD
  rw [h1]
  have hp := wordPlace_lt w
  have hn := numOps_pos P
  have hj : wordPlace w * numOps P / 4294967296 < opList.length := by
    rw [Nat.div_lt_iff_lt_mul (by norm_num)]
    have h3 : numOps P ≤ opList.length := by unfold numOps; split <;> decide
    exact lt_of_lt_of_le (Nat.mul_lt_mul_of_pos_right hp hn) (by rw [Nat.mul_comm]; exact Nat.mul_le_mul_right _ h3)
  exact ⟨_, List.getElem?_eq_getElem hj⟩

section
variable {beta : ℚ} {bins : ℕ}

/-- **C92, times.** Times are drawn from `[0, beta)` and differ from the exact ones by a relative error of at most 2^-53. -/
theorem C92_times (h : Modest beta bins) (w : Word) :
    0 ≤ pickTauD beta w ∧ pickTauD beta w < beta ∧ |pickTauD beta w - urn ℚ w * beta| ≤ urn ℚ w * beta / 2 ^ 53 := by
  have hb := h.beta_pos
  have h1 := pickTauD_near h w
  have h2 := urn_bounds w
  refine ⟨?_, ?_, h1⟩ <;> rw [abs_le] at h1
  · have : urn ℚ w * beta / 2 ^ 53 ≤ urn ℚ w * beta := by
      have : 0 ≤ urn ℚ w * beta := mul_nonneg h2.1 hb.le
      norm_num
      linarith
    linarith [h1.1]
  · have h3 := mul_le_mul_of_nonneg_right h2.2 hb.le
    have h4 : urn ℚ w * beta / 2 ^ 53 ≤ beta / 2 ^ 53 := by
      gcongr
      refine h3.trans ?_
      norm_num
      linarith
    norm_num at h1 h3 h4
    linarith [h1.2]

theorem rnd_nonpos {x : ℚ} (h : x ≤ 0) : rnd x ≤ 0 := by
  have hp : (0 : ℚ) < 2 ^ lastBit x := by positivity
  have h1 := (abs_le.1 (roundEven_near (x / 2 ^ lastBit x))).2
  have h2 : x / 2 ^ lastBit x ≤ 0 := div_nonpos_of_nonpos_of_nonneg h hp.le
  have h3 : (roundEven (x / 2 ^ lastBit x) : ℚ) < ((1 : ℤ) : ℚ) := by push_cast; linarith
  have h4 : roundEven (x / 2 ^ lastBit x) ≤ 0 := by
    have := Int.cast_lt.1 h3
    omega
  exact mul_nonpos_of_nonpos_of_nonneg (by exact_mod_cast h4) hp.le

/-- **C92, order of times.** Two times compare as the exact ones do, so the sign of antiperiodic functions (`GetTauSymmetryFactor`) is the exact one. -/
theorem C92_order (h : Modest beta bins) (w w' : Word) :
    (pickTauD beta w < pickTauD beta w' ↔ urn ℚ w * beta < urn ℚ w' * beta) ∧ (pickTauD beta w = pickTauD beta w' ↔ urn ℚ w * beta = urn ℚ w' * beta) := by
  have hb := h.beta_pos
  have lt : ∀ w w' : Word, wordPlace w < wordPlace w' → pickTauD beta w < pickTauD beta w' ∧ urn ℚ w * beta < urn ℚ w' * beta := by
    intro w w' q
    obtain ⟨-, -, h1, -⟩ := diffD h w w' rfl rfl
    constructor
    · by_contra c
      have := rnd_nonpos (x := pickTauD beta w' - pickTauD beta w) (by linarith)
      have h2 := h1 q
      have : 0 < beta / 2 ^ 33 := by positivity
      linarith
    · refine mul_lt_mul_of_pos_right ?_ hb
      rw [urn_wordPlace, urn_wordPlace]
      have : (wordPlace w : ℚ) < wordPlace w' := by exact_mod_cast q
      gcongr
  have eq : wordPlace w = wordPlace w' → pickTauD beta w = pickTauD beta w' ∧ urn ℚ w * beta = urn ℚ w' * beta := by
    intro q
    unfold pickTauD
    rw [urnD_eq, urnD_eq, urn_wordPlace, urn_wordPlace, q]
    exact ⟨rfl, rfl⟩
  rcases lt_trichotomy (wordPlace w) (wordPlace w') with q | q | q
  · obtain ⟨h1, h2⟩ := lt w w' q
    exact ⟨iff_of_true h1 h2, iff_of_false h1.ne h2.ne⟩
  · obtain ⟨h1, h2⟩ := eq q
    exact ⟨iff_of_false (by rw [h1]; exact lt_irrefl _) (by rw [h2]; exact lt_irrefl _), iff_of_true h1 h2⟩
  · obtain ⟨h1, h2⟩ := lt w' w q
    exact ⟨iff_of_false (lt_asymm h1) (lt_asymm h2), iff_of_false h1.ne' h2.ne'⟩

/-- The position of a difference of two times. -/
theorem tauPosD (h : Modest beta bins) (w w' : Word) {tau v : ℚ} (hv : v = urn ℚ w' - urn ℚ w) (ht : tau = rnd (pickTauD beta w' - pickTauD beta w)) :
    |rnd (tau * rnd (1 / dBetaD beta bins)) - v * bins| ≤ bins / 2 ^ 49 ∧ (tau < 0 ↔ v < 0) ∧ (0 ≤ v → 0 ≤ rnd (tau * rnd (1 / dBetaD beta bins))) ∧
      (v < 0 → rnd (tau * rnd (1 / dBetaD beta bins)) < 0) ∧ v ≤ 1 - 1 / 2 ^ 32 ∧ -(1 - 1 / 2 ^ 32) ≤ v := by
  have hb := h.beta_pos
  obtain ⟨h1, h2, h3, h4, h5, h6, h7, h8⟩ := diffD h w w' hv ht
  obtain ⟨e, he, hi⟩ := dBetaInvD_near h
  have p33 : 0 < beta / 2 ^ 33 := by positivity
  have hs : tau < 0 ↔ v < 0 := by
    rcases lt_trichotomy (wordPlace w') (wordPlace w) with q | q | q
    · exact iff_of_true (by linarith [h4 q]) (by have := h6 q; norm_num at this ⊢; linarith)
    · exact iff_of_false (by rw [h2 q]; exact lt_irrefl _) (by rw [hv, urn_wordPlace, urn_wordPlace, q, sub_self]; exact lt_irrefl _)
    · exact iff_of_false (by linarith [h3 q]) (by have := h5 q; norm_num at this ⊢; linarith)
  obtain ⟨k1, k2, k3⟩ := positionD h (v := v) (tau := tau) (by rw [abs_le]; norm_num at h7 h8 ⊢; constructor <;> linarith)
    (h1.trans (by norm_num; linarith)) (by
      rcases lt_trichotomy (wordPlace w') (wordPlace w) with q | q | q
      · right; rw [le_abs]; right; linarith [h4 q]
      · left; exact h2 q
      · right; rw [le_abs]; left; exact h3 q) he hi
  exact ⟨k1, hs, fun q => k2 (not_lt.1 fun c => absurd (hs.1 c) (not_lt.2 q)), fun q => k3 (hs.2 q), h7, h8⟩

/-- **C92, bins.** The difference of two times that were drawn at the same temperature has a bin within the table. -/
theorem C92_bins (h : Modest beta bins) (w w' : Word) :
    0 ≤ tauIndexD beta bins (pickTauD beta w) (pickTauD beta w') ∧ tauIndexD beta bins (pickTauD beta w) (pickTauD beta w') < bins := by
  have hn := h.bins_pos
  obtain ⟨h1, h2, h3, h4, h5, h6⟩ := tauPosD h w w' rfl rfl
  have g1 := mul_le_mul_of_nonneg_right h5 hn.le
  have g2 := mul_le_mul_of_nonneg_right h6 hn.le
  rw [abs_le] at h1
  unfold tauIndexD tauIndex1D
  dsimp only
  generalize rnd (rnd (pickTauD beta w' - pickTauD beta w) * rnd (1 / dBetaD beta bins)) = x at *
  by_cases q : urn ℚ w' - urn ℚ w < 0
  · rw [if_pos (h2.2 q)]
    constructor
    · have : (-(bins : ℤ)) ≤ ⌊x⌋ := by
        rw [Int.le_floor]
        push_cast
        norm_num at h1 g2
        linarith [h1.1]
      omega
    · have : ⌊x⌋ < 0 := Int.floor_lt.2 (by exact_mod_cast h4 q)
      omega
  · rw [if_neg (mt h2.1 q)]
    constructor
    · exact Int.floor_nonneg.2 (h3 (not_lt.1 q))
    · rw [Int.floor_lt]
      push_cast
      norm_num at h1 g1
      linarith [h1.2]

theorem floor_off_border {n : ℕ} (hn : (n : ℚ) < 2 ^ 17) {k : ℤ} {x : ℚ} (hx : |x - k * n / 4294967296| ≤ n / 2 ^ 49) :
    (¬ OnBorder (k * n / 4294967296) → ⌊x⌋ = ⌊(k * n / 4294967296 : ℚ)⌋) ∧
      (⌊x⌋ = ⌊(k * n / 4294967296 : ℚ)⌋ ∨ ⌊x⌋ = ⌊(k * n / 4294967296 : ℚ)⌋ - 1) := by
  have e : (k * n / 4294967296 : ℚ) = ((k * n : ℤ) : ℚ) / ((4294967296 : ℤ) : ℚ) := by push_cast; rfl
  have hm := Int.emod_nonneg (k * n) (show (4294967296 : ℤ) ≠ 0 by norm_num)
  have hm' := Int.emod_lt_of_pos (k * n) (show (0 : ℤ) < 4294967296 by norm_num)
  have hd := Int.emod_add_mul_ediv (k * n) 4294967296
  generalize k * (n : ℤ) % 4294967296 = r at *
  generalize k * (n : ℤ) / 4294967296 = q at *
  have e' : (k * n / 4294967296 : ℚ) = q + r / 4294967296 := by
    rw [e, ← hd]
    push_cast
    ring
  rw [e', abs_le] at hx
  rw [e']
  have r0 : (0 : ℚ) ≤ r := by exact_mod_cast hm
  have r1 : (r : ℚ) + 1 ≤ 4294967296 := by exact_mod_cast hm'
  have fq : ⌊(q + r / 4294967296 : ℚ)⌋ = q := by
    rw [Int.floor_eq_iff]
    constructor
    · have : (0 : ℚ) ≤ r / 4294967296 := by positivity
      linarith
    · have : (r : ℚ) / 4294967296 < 1 := by rw [div_lt_one (by norm_num)]; linarith
      linarith
  have small : (n : ℚ) / 2 ^ 49 < 1 / 4294967296 := by
    rw [div_lt_div_iff₀ (by norm_num) (by norm_num)]
    norm_num only at hn ⊢
    linarith
  have hr : (r : ℚ) / 4294967296 ≤ 1 - 1 / 4294967296 := by
    rw [div_le_iff₀ (by norm_num)]
    norm_num
    linarith
  rw [fq]
  constructor
  · intro hb
    have hr0 : (1 : ℚ) ≤ r := by
      have : r ≠ 0 := fun c => hb ⟨q, by rw [c]; norm_num⟩
      exact_mod_cast (show (1 : ℤ) ≤ r by omega)
    have : (1 : ℚ) / 4294967296 ≤ r / 4294967296 := by gcongr
    rw [Int.floor_eq_iff]
    constructor <;> linarith [hx.1, hx.2]
  · by_cases hxq : (q : ℚ) ≤ x
    · left
      rw [Int.floor_eq_iff]
      exact ⟨hxq, by linarith [hx.2]⟩
    · right
      rw [Int.floor_eq_iff]
      push_cast
      have : (0 : ℚ) ≤ r / 4294967296 := by positivity
      norm_num at small
      constructor
      · linarith [hx.1]
      · linarith

theorem urn_diff (w w' : Word) (n : ℕ) : (urn ℚ w' - urn ℚ w) * n = (((wordPlace w' : ℤ) - wordPlace w : ℤ) : ℚ) * n / 4294967296 := by
  rw [urn_wordPlace, urn_wordPlace]
  push_cast
  ring

/-- **C92, same bin.** With less than 2^17 bins the bin of a difference of two times is the exact one unless the exact difference lies on the border of two bins; then it is the
exact one or the one below. -/
theorem C92_same_bin {m : IndexMap ℚ} (h : Modest m.beta m.bins) (hn : m.bins < 2 ^ 17) (w w' : Word) :
    (¬ OnBorder ((urn ℚ w' - urn ℚ w) * m.bins) →
      tauIndexD m.beta m.bins (pickTauD m.beta w) (pickTauD m.beta w') = m.tauIndex (urn ℚ w * m.beta) (urn ℚ w' * m.beta)) ∧
    (tauIndexD m.beta m.bins (pickTauD m.beta w) (pickTauD m.beta w') = m.tauIndex (urn ℚ w * m.beta) (urn ℚ w' * m.beta) ∨
      tauIndexD m.beta m.bins (pickTauD m.beta w) (pickTauD m.beta w') = m.tauIndex (urn ℚ w * m.beta) (urn ℚ w' * m.beta) - 1) := by
  have hb := h.beta_pos
  have hp := h.bins_pos
  obtain ⟨h1, h2, -⟩ := tauPosD h w w' rfl rfl
  rw [urn_diff] at h1
  obtain ⟨k1, k2⟩ := floor_off_border (by exact_mod_cast hn) h1
  rw [← urn_diff] at k1 k2
  have e1 : m.tauIndex (urn ℚ w * m.beta) (urn ℚ w' * m.beta) =
      if urn ℚ w' - urn ℚ w < 0 then ⌊(urn ℚ w' - urn ℚ w) * m.bins⌋ + (m.bins : ℤ) else ⌊(urn ℚ w' - urn ℚ w) * m.bins⌋ := by
    unfold IndexMap.tauIndex IndexMap.tauIndex1 IndexMap.dBetaInv IndexMap.dBeta
    have e : (urn ℚ w' * m.beta - urn ℚ w * m.beta) * (1 / (m.beta / m.bins)) = (urn ℚ w' - urn ℚ w) * m.bins := by field_simp
    have s : urn ℚ w' * m.beta - urn ℚ w * m.beta < 0 ↔ urn ℚ w' - urn ℚ w < 0 := by
      rw [← sub_mul]
      constructor
      · intro c
        by_contra c'
        exact absurd c (not_lt.2 (mul_nonneg (not_lt.1 c') hb.le))
      · exact fun c => mul_neg_of_neg_of_pos c hb
    rw [e]
    simp only [s]
  rw [e1]
  unfold tauIndexD tauIndex1D
  dsimp only
  simp only [h2]
  split_ifs
  · exact ⟨fun q => by rw [k1 q], by rcases k2 with q | q <;> [left; right] <;> rw [q]; ring⟩
  · exact ⟨k1, k2⟩

/-- **C92, centres.** The bin of the centre of a bin is that bin. -/
theorem C92_centre (h : Modest beta bins) {b : ℤ} (h0 : 0 ≤ b) (hb : b < bins) : tauIndex1D beta bins (indexToTauD beta bins b) = b := by
  have hbp := h.beta_pos
  have hn := h.bins_pos
  have c0 : (0 : ℚ) ≤ b := by exact_mod_cast h0
  have c1 : (b : ℚ) + 1 ≤ bins := by exact_mod_cast hb
  obtain ⟨e1, f1, g1⟩ := rnd_rel h.ratio.1
  obtain ⟨e, he, hi⟩ := dBetaInvD_near h
  have f1' := abs_le.1 f1
  have p1 : 0 < 1 + e1 := by norm_num at f1' ⊢; linarith [f1'.1]
  have hd : dBetaD beta bins = beta / bins * (1 + e1) := g1
  have low : beta / 2 ^ 33 ≤ dBetaD beta bins / 2 := by
    rw [hd]
    have k1 : beta / 2 ^ 31 ≤ beta / bins := by
      have := h.bins_le
      gcongr
    have k2 : beta / 2 ^ 31 * (1 / 2) ≤ beta / bins * (1 + e1) := mul_le_mul k1 (by norm_num at f1' ⊢; linarith [f1'.1]) (by norm_num) (by positivity)
    norm_num at k2 ⊢
    linarith
  have dp : 0 < dBetaD beta bins := by have : 0 < beta / 2 ^ 33 := by positivity
                                       linarith
  have weak : beta / 2 ^ 40 ≤ beta / 2 ^ 33 := by gcongr <;> norm_num
  obtain ⟨e2, f2, g2⟩ : ∃ e2 : ℚ, |e2| ≤ 1 / 2 ^ 53 ∧ rnd (b * dBetaD beta bins) = b * dBetaD beta bins * (1 + e2) := by
    by_cases hz : b = 0
    · exact ⟨0, by norm_num, by rw [hz]; norm_num [rnd_zero]⟩
    · have : (1 : ℚ) ≤ b := by exact_mod_cast (show 1 ≤ b by omega)
      refine rnd_rel (h.normal ?_)
      rw [abs_of_pos (by positivity)]
      have := mul_le_mul_of_nonneg_right this dp.le
      linarith
  obtain ⟨e3, f3, g3⟩ := rnd_rel (h.normal (x := dBetaD beta bins / 2) (by rw [abs_of_pos (by positivity)]; linarith))
  have f2' := abs_le.1 f2
  have f3' := abs_le.1 f3
  have p2 : 0 < 1 + e2 := by norm_num at f2' ⊢; linarith [f2'.1]
  have p3 : 1 / 2 ≤ 1 + e3 := by norm_num at f3' ⊢; linarith [f3'.1]
  have s0 : beta / 2 ^ 34 ≤ rnd (b * dBetaD beta bins) + rnd (dBetaD beta bins / 2) := by
    rw [g2, g3]
    have k1 : 0 ≤ b * dBetaD beta bins * (1 + e2) := by positivity
    have k2 : beta / 2 ^ 33 * (1 / 2) ≤ dBetaD beta bins / 2 * (1 + e3) := mul_le_mul low p3 (by norm_num) (by positivity)
    norm_num at k2 ⊢
    linarith
  have sp : 0 < rnd (b * dBetaD beta bins) + rnd (dBetaD beta bins / 2) := by have : 0 < beta / 2 ^ 34 := by positivity
                                                                              linarith
  obtain ⟨e4, f4, g4⟩ := rnd_rel (h.normal (x := rnd (b * dBetaD beta bins) + rnd (dBetaD beta bins / 2)) (by
    rw [abs_of_pos sp]
    refine le_trans ?_ s0
    gcongr <;> norm_num))
  have f4' := abs_le.1 f4
  have p4 : 1 / 2 ≤ 1 + e4 := by norm_num at f4' ⊢; linarith [f4'.1]
  have ht : indexToTauD beta bins b = beta * ((b / bins) * ((1 + e1) * (1 + e2) * (1 + e4)) + (1 / 2 / bins) * ((1 + e1) * (1 + e3) * (1 + e4))) := by
    unfold indexToTauD
    rw [g4, g2, g3, hd]
    ring
  have three : ∀ a b c : ℚ, |a| ≤ 1 / 2 ^ 53 → |b| ≤ 1 / 2 ^ 53 → |c| ≤ 1 / 2 ^ 53 → |(1 + a) * (1 + b) * (1 + c) - 1| ≤ 4 / 2 ^ 53 := by
    intro a b c ha hb hc
    have e : (1 + a) * (1 + b) * (1 + c) - 1 = (a + b + c) + (a * b + a * c + b * c) + a * b * c := by ring
    have m1 := mul_le_mul ha hb (abs_nonneg _) (by norm_num)
    have m2 := mul_le_mul ha hc (abs_nonneg _) (by norm_num)
    have m3 := mul_le_mul hb hc (abs_nonneg _) (by norm_num)
    have m4 := mul_le_mul m1 hc (abs_nonneg _) (by norm_num)
    rw [← abs_mul] at m1 m2 m3
    rw [← abs_mul, ← abs_mul] at m4
    rw [e]
    rw [abs_le] at ha hb hc m1 m2 m3 m4 ⊢
    norm_num at ha hb hc m1 m2 m3 m4 ⊢
    constructor <;> linarith [ha.1, ha.2, hb.1, hb.2, hc.1, hc.2, m1.1, m1.2, m2.1, m2.2, m3.1, m3.2, m4.1, m4.2]
  have t1 := three e1 e2 e4 f1 f2 f4
  have t2 := three e1 e3 e4 f1 f3 f4
  have q0 : (0 : ℚ) ≤ b / bins := by positivity
  have q1 : (b / bins : ℚ) + 1 / 2 / bins ≤ 1 := by
    rw [← add_div, div_le_one hn]
    linarith
  have q2 : (0 : ℚ) ≤ 1 / 2 / bins := by positivity
  have vb : ((b + 1 / 2) / bins : ℚ) * bins = b + 1 / 2 := by field_simp
  have tp : 0 < indexToTauD beta bins b := by
    unfold indexToTauD
    rw [g4]
    positivity
  obtain ⟨k1, -, -⟩ := positionD h (tau := indexToTauD beta bins b) (v := (b + 1 / 2) / bins) (by
      rw [abs_of_nonneg (by positivity), add_div]
      exact q1) (by
      have : indexToTauD beta bins b - (b + 1 / 2) / bins * beta = beta * ((b / bins) * ((1 + e1) * (1 + e2) * (1 + e4) - 1) +
          (1 / 2 / bins) * ((1 + e1) * (1 + e3) * (1 + e4) - 1)) := by rw [ht]; ring
      rw [this, abs_mul, abs_of_pos hbp, mul_comm]
      refine mul_le_mul_of_nonneg_right ((abs_add_le _ _).trans ?_) hbp.le
      rw [abs_mul, abs_mul, abs_of_nonneg q0, abs_of_nonneg q2]
      have r1 := mul_le_mul_of_nonneg_left t1 q0
      have r2 := mul_le_mul_of_nonneg_left t2 q2
      norm_num at r1 r2 q1 ⊢
      linarith) (by
      right
      rw [abs_of_pos tp, ht]
      have t1' := (abs_le.1 t1).1
      have t2' := (abs_le.1 t2).1
      have u1 : 0 ≤ (1 + e1) * (1 + e2) * (1 + e4) := by norm_num at t1' ⊢; linarith
      have u2 : 1 / 2 ≤ (1 + e1) * (1 + e3) * (1 + e4) := by norm_num at t2' ⊢; linarith
      have u3 : (1 / 2 / 2 ^ 31 : ℚ) ≤ 1 / 2 / bins := by have := h.bins_le
                                                          gcongr
      have u4 := mul_le_mul u3 u2 (by norm_num) q2
      have u5 := mul_nonneg q0 u1
      have u6 := mul_le_mul_of_nonneg_left (add_le_add u5 u4) hbp.le
      refine le_trans (le_of_eq ?_) u6
      ring) he hi
  unfold tauIndex1D
  dsimp only
  rw [if_neg (not_lt.2 tp.le), Int.floor_eq_iff]
  rw [vb, abs_le] at k1
  have hbl : (bins : ℚ) ≤ 2 ^ 31 := h.bins_le
  norm_num only at k1 hbl
  constructor <;> linarith [k1.1, k1.2]

/-- The position of the time of a leg relative to the one of the interaction, in the three-point functions. -/
theorem gammaPosD (h : Modest beta bins) (w w' : Word) {v : ℚ} (hv : v = if urn ℚ w' - urn ℚ w < 0 then urn ℚ w' - urn ℚ w + 1 else urn ℚ w' - urn ℚ w) :
    ∃ x : ℚ, gammaIndexD beta bins (pickTauD beta w) (pickTauD beta w') = ⌊x⌋ ∧ |x - v * bins| ≤ bins / 2 ^ 49 ∧ 0 ≤ x ∧ v ≤ 1 - 1 / 2 ^ 32 := by
  have hb := h.beta_pos
  obtain ⟨-, h2, -, -, h5, h6⟩ := tauPosD h w w' rfl rfl
  obtain ⟨d1, d2, d3, d4, d5, d6, -, -⟩ := diffD h w w' rfl rfl
  obtain ⟨e, he, hi⟩ := binsOverD_near h
  unfold gammaIndexD
  dsimp only
  generalize rnd (pickTauD beta w' - pickTauD beta w) = tau at *
  by_cases q : urn ℚ w' - urn ℚ w < 0
  · rw [if_pos q] at hv
    rw [if_pos (h2.2 q)]
    have hu : urn ℚ w' - urn ℚ w ≤ -(1 / 2 ^ 32) := by
      refine d6 ?_
      by_contra c
      refine absurd q (not_lt.2 ?_)
      rw [urn_wordPlace, urn_wordPlace, ← sub_div]
      have : (wordPlace w : ℚ) ≤ wordPlace w' := by exact_mod_cast not_lt.1 c
      exact div_nonneg (by linarith) (by norm_num)
    generalize urn ℚ w' - urn ℚ w = u at *
    have b1 : 1 / 2 ^ 32 ≤ v := by rw [hv]; linarith
    have b2 : v ≤ 1 - 1 / 2 ^ 32 := by rw [hv]; linarith
    have s1 : |tau + beta - v * beta| ≤ 4 / 2 ^ 53 * beta := by
      rw [hv]
      refine le_trans (le_of_eq ?_) d1
      congr 1
      ring
    have s2 := abs_le.1 s1
    have s3 := mul_le_mul_of_nonneg_right b1 hb.le
    have s4 := mul_le_mul_of_nonneg_right b2 hb.le
    have s5 : beta / 2 ^ 33 * (1 + 1 / 2) ≤ tau + beta := by
      norm_num at s2 s3 ⊢
      linarith [s2.1]
    have s6 : tau + beta ≤ beta := by
      norm_num at s2 s4 ⊢
      linarith [s2.2]
    have p33 : 0 < beta / 2 ^ 33 := by positivity
    have sp : 0 < tau + beta := by linarith
    obtain ⟨e4, f4, g4⟩ := rnd_rel (h.normal (x := tau + beta) (by
      rw [abs_of_pos sp]
      have : beta / 2 ^ 40 ≤ beta / 2 ^ 33 := by gcongr <;> norm_num
      linarith))
    have f4' := abs_le.1 f4
    have t0 : beta / 2 ^ 33 ≤ rnd (tau + beta) := by
      rw [g4]
      have : beta / 2 ^ 33 * (1 + 1 / 2) * (1 - 1 / 2 ^ 53) ≤ (tau + beta) * (1 + e4) :=
        mul_le_mul s5 (by linarith [f4'.1]) (by norm_num) sp.le
      refine le_trans ?_ this
      norm_num at p33 ⊢
      linarith
    have t1 : |rnd (tau + beta) - v * beta| ≤ 8 / 2 ^ 53 * beta := by
      have e1 : rnd (tau + beta) - v * beta = (tau + beta) * e4 + (tau + beta - v * beta) := by rw [g4]; ring
      rw [e1]
      refine (abs_add_le _ _).trans ?_
      rw [abs_mul, abs_of_pos sp]
      have := mul_le_mul s6 f4 (abs_nonneg _) hb.le
      norm_num at this s1 ⊢
      linarith
    have tp : 0 ≤ rnd (tau + beta) := by linarith
    obtain ⟨k1, k2, -⟩ := positionD h (v := v) (tau := rnd (tau + beta)) (by rw [abs_le]; norm_num at b1 b2 ⊢; constructor <;> linarith) t1
      (Or.inr (by rw [abs_of_nonneg tp]; exact t0)) he hi
    exact ⟨_, rfl, k1, k2 tp, b2⟩
  · rw [if_neg q] at hv
    have ht := mt h2.1 q
    rw [if_neg ht]
    obtain ⟨k1, k2, -⟩ := positionD h (v := v) (tau := tau) (by rw [hv, abs_le]; norm_num at h5 h6 ⊢; constructor <;> linarith)
      (by rw [hv]; exact d1.trans (by norm_num; linarith)) (by
        rcases lt_trichotomy (wordPlace w') (wordPlace w) with c | c | c
        · right; rw [le_abs]; right; linarith [d4 c]
        · left; exact d2 c
        · right; rw [le_abs]; left; exact d3 c) he hi
    exact ⟨_, rfl, k1, k2 (not_lt.1 ht), by rw [hv]; exact h5⟩

/-- **C92, three-point functions.** The index of the time of a leg relative to the interaction is within the table if both times were drawn at the temperature of the table. -/
theorem C92_gamma (h : Modest beta bins) (w w' : Word) :
    0 ≤ gammaIndexD beta bins (pickTauD beta w) (pickTauD beta w') ∧ gammaIndexD beta bins (pickTauD beta w) (pickTauD beta w') < bins := by
  have hn := h.bins_pos
  obtain ⟨x, e, h1, h2, h3⟩ := gammaPosD h w w' rfl
  rw [e]
  refine ⟨Int.floor_nonneg.2 h2, ?_⟩
  rw [Int.floor_lt]
  have h4 := mul_le_mul_of_nonneg_right h3 hn.le
  rw [abs_le] at h1
  push_cast
  norm_num only at h1 h4
  linarith [h1.2]

/-- **C92, same index in the three-point functions**, as in `C92_same_bin`. The index on the right is the one that `GammaG.eval` computes from exact times. -/
theorem C92_gamma_same (h : Modest beta bins) (hn : bins < 2 ^ 17) (w w' : Word) {t1 : ℚ} (ht : t1 = urn ℚ w' * beta - urn ℚ w * beta) :
    (¬ OnBorder ((urn ℚ w' - urn ℚ w) * bins) →
      gammaIndexD beta bins (pickTauD beta w) (pickTauD beta w') = ⌊(if t1 < 0 then t1 + beta else t1) * (bins / beta)⌋) ∧
    (gammaIndexD beta bins (pickTauD beta w) (pickTauD beta w') = ⌊(if t1 < 0 then t1 + beta else t1) * (bins / beta)⌋ ∨
      gammaIndexD beta bins (pickTauD beta w) (pickTauD beta w') = ⌊(if t1 < 0 then t1 + beta else t1) * (bins / beta)⌋ - 1) := by
  have hb := h.beta_pos
  have hp := h.bins_pos
  obtain ⟨x, e, h1, -, -⟩ := gammaPosD h w w' rfl
  have s : t1 < 0 ↔ urn ℚ w' - urn ℚ w < 0 := by
    rw [ht, ← sub_mul]
    constructor
    · intro c
      by_contra c'
      exact absurd c (not_lt.2 (mul_nonneg (not_lt.1 c') hb.le))
    · exact fun c => mul_neg_of_neg_of_pos c hb
  rw [e]
  by_cases q : urn ℚ w' - urn ℚ w < 0
  · rw [if_pos q] at h1
    have e2 : (urn ℚ w' - urn ℚ w + 1) * bins = (((wordPlace w' : ℤ) - wordPlace w + 4294967296 : ℤ) : ℚ) * bins / 4294967296 := by
      rw [urn_wordPlace, urn_wordPlace]
      push_cast
      ring
    have e3 : (t1 + beta) * (bins / beta) = (((wordPlace w' : ℤ) - wordPlace w + 4294967296 : ℤ) : ℚ) * bins / 4294967296 := by
      rw [← e2, ht]
      field_simp
    rw [e2] at h1
    rw [if_pos (s.2 q), e3]
    obtain ⟨k1, k2⟩ := floor_off_border (by exact_mod_cast hn) h1
    refine ⟨fun c => k1 fun ⟨z, hz⟩ => c ⟨z - bins, ?_⟩, k2⟩
    push_cast
    rw [← hz, ← e2]
    ring
  · rw [if_neg q, urn_diff] at h1
    rw [if_neg (mt s.1 q)]
    have e3 : t1 * (bins / beta) = (((wordPlace w' : ℤ) - wordPlace w : ℤ) : ℚ) * bins / 4294967296 := by
      rw [← urn_diff, ht]
      field_simp
    rw [e3]
    obtain ⟨k1, k2⟩ := floor_off_border (by exact_mod_cast hn) h1
    exact ⟨fun c => k1 (by rwa [← urn_diff]), k2⟩

end

/-! ## After a change of the temperature -/

/-- A word of the generator that gives a small random number. -/
def lowWord (k : ℕ) : Word := Fin.ofNat 4294967296 (2147483648 + k)

/-- **C92, refuted for times of different temperatures.** Times drawn earlier are kept when the temperature changes (1.0 to 1.1 here, with 64 bins). One of them and a time drawn
afterwards can differ by so little that the sum with `Beta` is rounded to `Beta`. The index is then the number of bins, one more than the last index of the table. -/
theorem C92_refuted_temperatures : ∃ w w' : Word, pickTauD 1 w' < pickTauD (rnd (11 / 10)) w ∧
    gammaIndexD (rnd (11 / 10)) 64 (pickTauD (rnd (11 / 10)) w) (pickTauD 1 w') = 64 :=
  ⟨lowWord 50, lowWord 55, by decide +kernel, by decide +kernel⟩

/-! ## A case -/

theorem demo_modest : Modest (1 / 2) 64 where
  low := by
    rw [show (1 / 2 : ℚ) = 2 ^ (-1 : ℤ) by norm_num]
    exact zpow_le_zpow_right₀ (by norm_num) (by norm_num)
  high := by
    refine le_trans (b := (2 : ℚ) ^ (0 : ℤ)) (by norm_num) ?_
    exact zpow_le_zpow_right₀ (by norm_num) (by norm_num)
  pos := by norm_num
  bins := by norm_num

/-- Neither bin nor border is trivial: 0.3 and 0.1 give bin 12 of 64, the other order gives bin 51. -/
example : tauIndexD (1 / 2) 64 (pickTauD (1 / 2) (lowWord 429496730)) (pickTauD (1 / 2) (lowWord 1288490189)) = 12 ∧
    tauIndexD (1 / 2) 64 (pickTauD (1 / 2) (lowWord 1288490189)) (pickTauD (1 / 2) (lowWord 429496730)) = 51 ∧
    gammaIndexD (1 / 2) 64 (pickTauD (1 / 2) (lowWord 1288490189)) (pickTauD (1 / 2) (lowWord 429496730)) = 51 := by decide +kernel

example : 0 ≤ tauIndexD (1 / 2) 64 (pickTauD (1 / 2) (lowWord 5)) (pickTauD (1 / 2) (lowWord 3)) := (C92_bins demo_modest _ _).1

/-- **C92, refuted on borders.** The exception in `C92_same_bin` is needed: at the inverse temperature 0.3 with 64 bins, two times that differ by exactly 31 bins get bin 30. -/
theorem C92_refuted_border : ∃ w w' : Word, (urn ℚ w' - urn ℚ w) * 64 = 31 ∧ tauIndexD (rnd (3 / 10)) 64 (pickTauD (rnd (3 / 10)) w) (pickTauD (rnd (3 / 10)) w') = 30 :=
  ⟨lowWord 0, lowWord 2080374784, by decide +kernel, by decide +kernel⟩

end Feyn
