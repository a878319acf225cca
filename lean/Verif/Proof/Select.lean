import Mathlib.Algebra.BigOperators.Intervals
import Mathlib.Algebra.Order.BigOperators.Group.Finset
import Mathlib.Algebra.Order.Field.Basic
import Mathlib.Tactic.FieldSimp
import Mathlib.Tactic.Linarith
import Verif.Model.Chain

/-! Selection of the operation in `Hop`. -/

namespace Feyn

open Finset

section
variable {Q : Type} [Field Q] [LinearOrder Q] [IsStrictOrderedRing Q]

omit [LinearOrder Q] [IsStrictOrderedRing Q] in
theorem callSum_eq (p : ℕ → Q) (n j : ℕ) : callSum p n j = ∑ i ∈ range (min n (j + 1)), p i := by
  unfold callSum
  induction n with
  | zero => simp
  | succ n ih =>
    rw [List.range_succ, List.foldl_append, ih]
    simp only [List.foldl_cons, List.foldl_nil]
    by_cases c : n ≤ j
    · rw [if_pos c, show min n (j + 1) = n by omega, show min (n + 1) (j + 1) = n + 1 by omega, sum_range_succ]
    · rw [if_neg c, show min (n + 1) (j + 1) = min n (j + 1) by omega]

theorem find_range {f : ℕ → Bool} {n j : ℕ} (hj : j < n) (hf : f j = true) (hl : ∀ i < j, f i = false) :
    (List.range n).find? f = some j := by
  induction n with
  | zero => omega
  | succ n ih =>
    rw [List.range_succ, List.find?_append]
    by_cases c : j < n
    · rw [ih c]; rfl
    · obtain rfl : j = n := by omega
      have : (List.range j).find? f = none := by
        rw [List.find?_eq_none]
        intro i hi
        rw [hl i (List.mem_range.1 hi)]; decide
      rw [this]
      simp [hf]

/-- The interval in which `x` lies is found. -/
theorem selectIdx_spec (p : ℕ → Q) (hp : ∀ i, 0 ≤ p i) (n : ℕ) (x : Q) (j : ℕ) (hj : j < n)
    (h1 : ∑ i ∈ range j, p i ≤ x) (h2 : x < ∑ i ∈ range (j + 1), p i) : selectIdx p n x = some j := by
  unfold selectIdx
  refine find_range hj ?_ fun i hi => ?_
  · rw [callSum_eq, show min n (j + 1) = j + 1 by omega]
    exact decide_eq_true h2
  · rw [callSum_eq, show min n (i + 1) = i + 1 by omega]
    refine decide_eq_false (not_lt.2 (le_trans ?_ h1))
    exact sum_le_sum_of_subset_of_nonneg (range_mono (by omega)) fun i _ _ => hp i

omit [IsStrictOrderedRing Q] in
/-- Some interval contains `x`. -/
theorem exists_interval (p : ℕ → Q) (n : ℕ) (x : Q) (h0 : 0 ≤ x) (h1 : x < ∑ i ∈ range n, p i) :
    ∃ j < n, ∑ i ∈ range j, p i ≤ x ∧ x < ∑ i ∈ range (j + 1), p i := by
  induction n with
  | zero => simp at h1; exact absurd h1 (not_lt.2 h0)
  | succ n ih =>
    by_cases c : x < ∑ i ∈ range n, p i
    · obtain ⟨j, hj, h⟩ := ih c
      exact ⟨j, by omega, h⟩
    · exact ⟨n, by omega, not_lt.1 c, h1⟩

variable {F : Type} [Field F]

omit [IsStrictOrderedRing Q] in
theorem sum_probOfIdx (P : Params Q F) {j : ℕ} (hj : j ≤ numOps P) :
    ∑ i ∈ range j, probOfIdx P i = (j : Q) / (numOps P : Q) := by
  have : ∀ i ∈ range j, probOfIdx P i = 1 / (numOps P : Q) := fun i hi => by
    rw [probOfIdx, if_pos (by have := mem_range.1 hi; omega)]
  rw [sum_congr rfl this, sum_const, card_range, nsmul_eq_mul, mul_one_div]

omit [IsStrictOrderedRing Q] in
theorem numOps_pos (P : Params Q F) : 0 < numOps P := by unfold numOps; split <;> norm_num

theorem probOfIdx_nonneg (P : Params Q F) (i : ℕ) : 0 ≤ probOfIdx P i := by
  unfold probOfIdx; split
  · positivity
  · exact le_rfl

omit [IsStrictOrderedRing Q] in
theorem opList_get (P : Params Q F) {j : ℕ} (hj : j < numOps P) : ∃ op, opList[j]? = some op ∧ op.idx = j := by
  have : numOps P ≤ 23 := by unfold numOps; split <;> norm_num
  have hj' : j < 23 := by omega
  clear hj this
  revert j
  decide

/-- The operation with number `j` is selected exactly on the `j`-th of `numOps` equal intervals. -/
theorem selectOp_spec (P : Params Q F) (x : Q) (h0 : 0 ≤ x) (h1 : x < 1) :
    ∃ op, selectOp P x = some op ∧ op.idx < numOps P ∧ (op.idx : Q) / (numOps P : Q) ≤ x ∧
      x < ((op.idx + 1 : ℕ) : Q) / (numOps P : Q) := by
  have hn := numOps_pos P
  have hs : ∑ i ∈ range (numOps P), probOfIdx P i = 1 := by
    rw [sum_probOfIdx P le_rfl]
    exact div_self (Nat.cast_ne_zero.2 hn.ne')
  obtain ⟨j, hj, h2, h3⟩ := exists_interval (probOfIdx P) (numOps P) x h0 (by rw [hs]; exact h1)
  obtain ⟨op, e, ei⟩ := opList_get P hj
  rw [sum_probOfIdx P hj.le] at h2
  have h3' := h3
  rw [sum_probOfIdx P hj] at h3'
  refine ⟨op, ?_, by omega, by rw [ei]; exact h2, by rw [ei]; exact h3'⟩
  unfold selectOp
  rw [selectIdx_spec _ (probOfIdx_nonneg P) _ x j hj (by rw [sum_probOfIdx P hj.le]; exact h2) h3]
  exact e

end
end Feyn
