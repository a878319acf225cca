import Verif.Spec.Anneal
import Mathlib.Algebra.Order.Archimedean.Basic
import Mathlib.Tactic.IntervalCases
import Mathlib.Tactic.Linarith
import Mathlib.Tactic.FieldSimp
import Mathlib.Tactic.Ring
import Mathlib.Tactic.NormNum

/-!
# The annealing field goes to zero (C70)
-/

namespace Feyn
open Annealing

set_option linter.unusedSectionVars false

variable {Q : Type} [Field Q] [LinearOrder Q] [IsStrictOrderedRing Q] {n : ℕ}

/-- **C70**: the field used and the field in the parameters are always the same. -/
theorem C70_saved (delta interval : Fin (n + 1) → Q) (es : List Ending) : ((start delta interval).run es).saved = ((start delta interval).run es).delta := by
  suffices h : ∀ s : Annealing Q n, s.saved = s.delta → (s.run es).saved = (s.run es).delta from h _ rfl
  induction es with
  | nil => exact fun s h => h
  | cons e es ih =>
    intro s h
    refine ih _ ?_
    cases e
    · show s.decreaseField.1.saved = s.decreaseField.1.delta
      unfold decreaseField
      split_ifs
      · funext i
        simp [h]
      · exact h
    · funext i
      simp [step, revertField, h]
    · exact h

theorem Annealing.Multiple.touch {d : Fin (n + 1) → Q} {s : Annealing Q n} {k j : ℕ} (h : s.Multiple d k j) : s.revertField.Multiple d (2 * k + 1) (j + 1) := by
  intro i
  obtain ⟨h1, h2⟩ := h i
  simp only [revertField]
  rw [h2, h1, pow_succ]
  push_cast
  constructor <;> field_simp
  ring

theorem Annealing.Multiple.done {d : Fin (n + 1) → Q} {s : Annealing Q n} {k j : ℕ} (h : s.Multiple d k j) :
    if |s.delta 0| > 1 / 100000 then 0 < k ∧ s.decreaseField.1.Multiple d (k - 1) j ∧ s.decreaseField.2 = true else s.decreaseField = (s, false) := by
  unfold decreaseField
  split_ifs with hc
  · have hk : 0 < k := by
      rcases Nat.eq_zero_or_pos k with rfl | hk
      · have := (h 0).2
        simp at this
        rw [this, abs_zero] at hc
        norm_num at hc
      · exact hk
    refine ⟨hk, fun i => ⟨(h i).1, ?_⟩, rfl⟩
    show s.delta i + s.interval i = _
    rw [(h i).2, Nat.cast_sub hk]
    push_cast
    ring
  · rfl

/-- **C70**: if the field is initially a whole number of intervals below zero, this remains so whatever happens: it never passes zero. -/
theorem C70_multiple {d : Fin (n + 1) → Q} {s : Annealing Q n} {k j : ℕ} (h : s.Multiple d k j) (es : List Ending) : ∃ k' j', (s.run es).Multiple d k' j' := by
  induction es generalizing s k j with
  | nil => exact ⟨k, j, h⟩
  | cons e es ih =>
    cases e
    · have := h.done
      split_ifs at this
      · exact ih this.2.1
      · exact ih (s := s.step .done) (by rw [step, this]; exact h)
    · exact ih h.touch
    · exact ih h

/-- **C70**: after a successful version, any number of failures returns the field towards that of the successful version, which it never reaches. -/
theorem C70_revert (s : Annealing Q n) (h : s.decreaseField.2 = true) (r : ℕ) (i : Fin (n + 1)) :
    (s.run (.done :: List.replicate r .touch)).delta i = s.delta i + s.interval i / 2 ^ r ∧
      (s.run (.done :: List.replicate r .touch)).interval i = s.interval i / 2 ^ r := by
  have h0 : (s.run [.done]).delta i = s.delta i + s.interval i ∧ (s.run [.done]).interval i = s.interval i := by
    show s.decreaseField.1.delta i = _ ∧ s.decreaseField.1.interval i = _
    unfold decreaseField at h ⊢
    split_ifs at h ⊢
    exact ⟨rfl, rfl⟩
  induction r with
  | zero => simpa using h0
  | succ r ih =>
    rw [List.replicate_succ', ← List.cons_append, run, List.foldl_append]
    change (revertField (s.run _)).delta i = _ ∧ (revertField (s.run _)).interval i = _
    simp only [revertField]
    rw [ih.1, ih.2, pow_succ]
    constructor <;> field_simp
    ring

/-- Once the first component is zero, within the tolerance, successful versions leave everything. -/
theorem C70_stays {s : Annealing Q n} (h : |s.delta 0| ≤ 1 / 100000) (r : ℕ) : s.run (List.replicate r .done) = s ∧ s.decreaseField.2 = false := by
  have e : s.decreaseField = (s, false) := by
    unfold decreaseField
    rw [if_neg (not_lt.2 h)]
  refine ⟨?_, by rw [e]⟩
  induction r with
  | zero => rfl
  | succ r ih =>
    rw [List.replicate_succ]
    show (s.decreaseField.1).run _ = s
    rw [e]
    exact ih

/-- **C70**: whatever happened before, finitely many successful versions take all components of the field to zero, up to the tolerance for the first and in proportion
for the others, and there it stays. -/
theorem C70_reaches {d : Fin (n + 1) → Q} {s : Annealing Q n} {k j : ℕ} (h : s.Multiple d k j) (es : List Ending) :
    ∃ K, ∀ r, K ≤ r → let s' := s.run (es ++ List.replicate r .done)
      |s'.delta 0| ≤ 1 / 100000 ∧ s'.decreaseField.2 = false ∧ ∀ i, |s'.delta i| * |d 0| ≤ 1 / 100000 * |d i| := by
  obtain ⟨k, j, h⟩ := C70_multiple h es
  simp only [run, List.foldl_append]
  change ∃ K, ∀ r, K ≤ r → |((s.run es).run _).delta 0| ≤ _ ∧ ((s.run es).run _).decreaseField.2 = _ ∧ ∀ i, |((s.run es).run _).delta i| * _ ≤ _
  generalize s.run es = s at h ⊢
  have goal : ∃ K k' , |(s.run (List.replicate K .done)).delta 0| ≤ 1 / 100000 ∧ (s.run (List.replicate K .done)).Multiple d k' j := by
    induction k generalizing s with
    | zero =>
      refine ⟨0, 0, ?_, h⟩
      have := (h 0).2
      simp at this
      simp only [List.replicate_zero, run, List.foldl_nil]
      rw [this, abs_zero]
      norm_num
    | succ k ih =>
      have := h.done
      split_ifs at this with hc
      · obtain ⟨K, k', h1⟩ := ih _ this.2.1
        exact ⟨K + 1, k', h1⟩
      · exact ⟨0, k + 1, not_lt.1 hc, h⟩
  obtain ⟨K, k', h1, h2⟩ := goal
  refine ⟨K, fun r hr => ?_⟩
  have e : s.run (List.replicate r .done) = s.run (List.replicate K .done) := by
    obtain ⟨m, rfl⟩ := Nat.exists_eq_add_of_le hr
    rw [List.replicate_add, run, List.foldl_append]
    exact (C70_stays h1 m).1
  rw [e]
  refine ⟨h1, (C70_stays h1 0).2, fun i => ?_⟩
  rw [(h2 0).2, (h2 0).1] at h1
  rw [(h2 i).2, (h2 i).1]
  have := mul_le_mul_of_nonneg_right h1 (abs_nonneg (d i))
  refine le_trans (le_of_eq ?_) this
  rw [← abs_mul, ← abs_mul]
  congr 1
  ring

/-- The hypothesis holds for the values given as a comment in inlist.py 117-118: ten intervals. -/
example : (start ![-1 / 2, -1 / 2, 0, 0] ![1 / 20, 1 / 20, 0, 0] : Annealing ℚ 3).Multiple ![1 / 20, 1 / 20, 0, 0] 10 0 := by
  unfold Multiple
  decide +kernel

/-- **C70 fails** if the field is not a whole number of intervals: it passes zero and grows without end. -/
theorem C70_refuted_multiple (r : ℕ) :
    let s := (start (fun _ => -1) (fun _ => 3 / 10) : Annealing ℚ 0).run (List.replicate r .done)
    s.delta 0 = -1 + 3 / 10 * r ∧ s.decreaseField.2 = true := by
  have h : ∀ r : ℕ, |(-1 + 3 / 10 * r : ℚ)| > 1 / 100000 := by
    intro r
    rcases Nat.lt_or_ge r 4 with hr | hr
    · interval_cases r <;> norm_num [abs_lt, lt_abs]
    · have : (4 : ℚ) ≤ r := by exact_mod_cast hr
      rw [gt_iff_lt, lt_abs]
      left
      linarith
  suffices g : ∀ r, ((start (fun _ => -1) (fun _ => 3 / 10) : Annealing ℚ 0).run (List.replicate r .done)).delta 0 = -1 + 3 / 10 * r ∧
      ((start (fun _ => -1) (fun _ => 3 / 10) : Annealing ℚ 0).run (List.replicate r .done)).interval 0 = 3 / 10 by
    refine ⟨(g r).1, ?_⟩
    unfold decreaseField
    rw [if_pos]
    rw [(g r).1]
    exact h r
  intro r
  induction r with
  | zero => simp [run, start]
  | succ r ih =>
    rw [List.replicate_succ', run, List.foldl_append]
    change (decreaseField (run _ _)).1.delta 0 = _ ∧ (decreaseField (run _ _)).1.interval 0 = _
    unfold decreaseField
    rw [if_pos (by rw [ih.1]; exact h r)]
    refine ⟨?_, ih.2⟩
    show (run _ _).delta 0 + (run _ _).interval 0 = _
    rw [ih.1, ih.2]
    push_cast
    ring

/-- **C70 fails** if the first component has no field: only this component is tested, the others keep theirs. -/
theorem C70_refuted_first (r : ℕ) : (start ![0, -1 / 2] ![0, 1 / 20] : Annealing ℚ 1).run (List.replicate r .done) = start ![0, -1 / 2] ![0, 1 / 20] :=
  (C70_stays (by decide +kernel) r).1

end Feyn
