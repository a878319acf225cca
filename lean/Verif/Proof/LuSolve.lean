import Verif.Proof.LuFactor

/-!
# What the solver computes
-/

namespace Feyn
namespace Lu

section
variable {Q F : Type} [LinearOrder Q] [Field F] [DecidableEq F] {n M : ℕ}

omit [Field F] [DecidableEq F] in
theorem zlaswp_eq (piv : Fin n → Fin n) (b : Matrix (Fin n) (Fin n) F) : zlaswp piv b = b.submatrix (perm piv n) id := by
  have : ∀ k ≤ n, pass (fun b j => swapRows b j (piv j)) b k = b.submatrix (perm piv k) id := by
    intro k
    induction k with
    | zero => intro _; ext i c; simp [pass, perm]
    | succ k ih =>
      intro hk
      have hk' : k < n := hk
      simp only [pass, dif_pos hk']
      rw [ih (by omega)]
      have := perm_succ piv ⟨k, hk'⟩
      ext i c
      simp only [swapRows, Matrix.submatrix_apply, id]
      rw [show perm piv (k + 1) = perm piv k * Equiv.swap ⟨k, hk'⟩ (piv ⟨k, hk'⟩) from this]
      rfl
  exact this n (le_refl n)

theorem lower_solve (a b : Matrix (Fin n) (Fin n) F) : lower a * ztrsmLower a b = b := by
  ext i c
  have := pass_ind (fun (x : Fin n → F) k => if x k = 0 then x else fun i => if k < i then x i - x k * a i k else x i) (fun i => b i c)
    (fun k x => ∀ i, b i c = (∑ l : Fin n, if (l : ℕ) < k then lower a i l * x l else 0) + if k ≤ (i : ℕ) then x i else 0)
    (fun i => by simp)
    (by
      intro j x h i
      set y := if x j = 0 then x else fun i => if j < i then x i - x j * a i j else x i with hy
      have hyi : ∀ i, y i = if j < i then x i - x j * a i j else x i := by
        intro i
        rw [hy]
        split
        · rename_i h0
          simp [h0]
        · rfl
      rw [h i, sum_step, add_assoc]
      congr 1
      · refine Finset.sum_congr rfl fun l _ => ?_
        by_cases hl : (l : ℕ) < j
        · rw [if_pos hl, if_pos hl, hyi, if_neg (fun h : j < l => by have : (j : ℕ) < l := h; omega)]
        · rw [if_neg hl, if_neg hl]
      · rw [hyi j, if_neg (lt_irrefl _), hyi i]
        unfold lower
        rcases lt_trichotomy i j with hi | hi | hi
        · have : (i : ℕ) < j := hi
          rw [if_neg (by omega), if_neg (not_lt.2 (le_of_lt hi)), if_neg (ne_of_gt hi), if_neg (by omega)]
          simp
        · subst hi
          simp
        · have : (j : ℕ) < i := hi
          rw [if_pos (by omega), if_pos hi, if_pos (by omega), if_pos hi]
          ring) n (le_refl n)
  have h := this i
  rw [if_neg (by have := i.2; omega), add_zero] at h
  rw [Matrix.mul_apply, h]
  refine Finset.sum_congr rfl fun l _ => ?_
  rw [if_pos l.2]
  rfl

omit [DecidableEq F] in
theorem sum_step_rev (f : Fin n → F) (j : Fin n) :
    (∑ l : Fin n, if n ≤ (l : ℕ) + ((j : ℕ) + 1) then f l else 0) = (∑ l : Fin n, if n ≤ (l : ℕ) + (j : ℕ) then f l else 0) + f (Fin.rev j) := by
  have : ∀ l : Fin n, (if n ≤ (l : ℕ) + ((j : ℕ) + 1) then f l else 0) = (if n ≤ (l : ℕ) + (j : ℕ) then f l else 0) + if l = Fin.rev j then f l else 0 := by
    intro l
    have hr : ((Fin.rev j : Fin n) : ℕ) = n - (j + 1) := Fin.val_rev j
    have hj := j.2
    by_cases hl : l = Fin.rev j
    · have : (l : ℕ) = n - (j + 1) := by rw [hl, hr]
      rw [if_pos (by omega), if_neg (by omega), if_pos hl, zero_add]
    · have : (l : ℕ) ≠ n - (j + 1) := fun h => hl (Fin.ext (h.trans hr.symm))
      rw [if_neg hl, add_zero]
      by_cases h : n ≤ (l : ℕ) + j
      · rw [if_pos h, if_pos (by omega)]
      · rw [if_neg h, if_neg (by omega)]
  rw [Finset.sum_congr rfl fun l _ => this l, Finset.sum_add_distrib, Finset.sum_ite_eq' Finset.univ]
  simp

theorem upper_solve (a b : Matrix (Fin n) (Fin n) F) (hd : ∀ i, a i i ≠ 0) : upper a * ztrsmUpper a b = b := by
  ext i c
  have := pass_ind (fun (x : Fin n → F) l =>
    let k := Fin.rev l
    if x k = 0 then x else fun i => if i = k then x k / a k k else if i < k then x i - x k / a k k * a i k else x i) (fun i => b i c)
    (fun k x => ∀ i, b i c = (∑ l : Fin n, if n ≤ (l : ℕ) + k then upper a i l * x l else 0) + if (i : ℕ) + k < n then x i else 0)
    (fun i => by
      have : ∀ l : Fin n, ¬ (n ≤ (l : ℕ)) := fun l => by have := l.2; omega
      simp [this])
    (by
      intro j x h i
      set k := Fin.rev j with hk
      have hr : (k : ℕ) = n - (j + 1) := Fin.val_rev j
      have hj := j.2
      set y := if x k = 0 then x else fun i => if i = k then x k / a k k else if i < k then x i - x k / a k k * a i k else x i with hy
      have hyi : ∀ i, y i = if i = k then x k / a k k else if i < k then x i - x k / a k k * a i k else x i := by
        intro i
        rw [hy]
        split
        · rename_i h0
          by_cases hik : i = k
          · rw [hik]; simp [h0]
          · simp [h0, hik]
        · rfl
      change b i c = (∑ l : Fin n, if n ≤ (l : ℕ) + ((j : ℕ) + 1) then upper a i l * y l else 0) + if (i : ℕ) + ((j : ℕ) + 1) < n then y i else 0
      rw [h i, sum_step_rev, add_assoc, ← hk]
      congr 1
      · refine Finset.sum_congr rfl fun l _ => ?_
        by_cases hl : n ≤ (l : ℕ) + j
        · have hlk : k < l := by show (k : ℕ) < l; omega
          rw [if_pos hl, if_pos hl, hyi, if_neg (ne_of_gt hlk), if_neg (not_lt.2 (le_of_lt hlk))]
        · rw [if_neg hl, if_neg hl]
      · rw [hyi k, if_pos rfl, hyi i]
        unfold upper
        rcases lt_trichotomy i k with hi | hi | hi
        · have : (i : ℕ) < k := hi
          rw [if_pos (by omega), if_pos (le_of_lt hi), if_pos (by omega), if_neg (ne_of_lt hi), if_pos hi]
          ring
        · have h2 : (i : ℕ) = k := by rw [hi]
          have h3 : (i : ℕ) + j < n := by omega
          have h4 : ¬ (i : ℕ) + (j + 1) < n := by omega
          rw [if_pos h3, if_neg h4, hi, if_pos (le_refl _), mul_div_cancel₀ _ (hd k), add_zero]
        · have : (k : ℕ) < i := hi
          rw [if_neg (by omega), if_neg (not_le.2 hi), if_neg (by omega)]
          simp) n (le_refl n)
  have h := this i
  rw [if_neg (by omega), add_zero] at h
  rw [Matrix.mul_apply, h]
  refine Finset.sum_congr rfl fun l _ => ?_
  rw [if_pos (by omega)]
  rfl

/-- The solution. -/
theorem solves [Zero Q] {size : F → Q} (hz : IsSize size) (A : Matrix (Fin n) (Fin n) F) (h : (zgetrf size A).info = 0)
    (B : Matrix (Fin n) (Fin n) F) : A * zgetrs (zgetrf size A).a (zgetrf size A).piv B = B := by
  have hd : ∀ i, (zgetrf size A).a i i ≠ 0 := fun i => (zgetrf_facts hz A).info.1 h i i.2
  set s := zgetrf size A
  set X := zgetrs s.a s.piv B with hX
  have h1 : lower s.a * (upper s.a * X) = B.submatrix (perm s.piv n) id := by
    rw [hX, zgetrs, upper_solve _ _ hd, lower_solve, zlaswp_eq]
  rw [← Matrix.mul_assoc, ← factors hz A] at h1
  ext i c
  have h2 := congrFun (congrFun h1 ((perm s.piv n).symm i)) c
  rw [Matrix.mul_apply] at h2
  simp only [Matrix.submatrix_apply, id] at h2
  change ∑ l, A ((perm s.piv n) ((perm s.piv n).symm i)) l * X l c = B ((perm s.piv n) ((perm s.piv n).symm i)) c at h2
  rw [Equiv.apply_symm_apply] at h2
  rw [Matrix.mul_apply]
  exact h2

end
end Lu
end Feyn
