import Verif.Proof.LuStack
import Verif.Props.Dyson
import Mathlib.LinearAlgebra.Matrix.Notation
import Mathlib.LinearAlgebra.Matrix.Hermitian
import Mathlib.LinearAlgebra.Matrix.SchurComplement
import Mathlib.Analysis.SpecialFunctions.Trigonometric.Basic
import Mathlib.Algebra.Order.Ring.Rat

/-!
# The linear solver and the check of the denominators (C88)
-/

namespace Feyn

open Lu

section
variable {Q F : Type} [LinearOrder Q] [Zero Q] [Field F] [DecidableEq F] {n M : ℕ}

/-- `lu_factor` returns exactly if no matrix is singular. -/
theorem C88_factor (fast : Bool) {size : F → Q} (hz : IsSize size) (arr : Stack n M F) :
    (luFactor fast size arr).isSome ↔ ∀ m, (arr.elem m).det ≠ 0 := by
  unfold luFactor
  simp only [info_iff hz]
  split <;> simp_all

omit [Zero Q] in
theorem factor_some {fast : Bool} {size : F → Q} {arr after lu : Stack n M F} {piv : Fin M → Fin n → Fin n}
    (h : luFactor fast size arr = some (after, lu, piv)) (m : Fin M) :
    (zgetrf size (arr.elem m)).info = 0 ∧ lu.elem m = (zgetrf size (arr.elem m)).a ∧ piv m = (zgetrf size (arr.elem m)).piv := by
  simp only [luFactor] at h
  by_cases hall : ∀ m, (zgetrf size (arr.elem m)).info = 0
  · rw [if_pos hall] at h
    simp only [Option.some.injEq, Prod.mk.injEq] at h
    obtain ⟨-, rfl, rfl⟩ := h
    exact ⟨hall m, rfl, rfl⟩
  · rw [if_neg hall] at h
    exact absurd h (by simp)

/-- `lu_det` gives the determinants. -/
theorem C88_det {fast : Bool} {size : F → Q} (hz : IsSize size) {arr after lu : Stack n M F} {piv : Fin M → Fin n → Fin n}
    (h : luFactor fast size arr = some (after, lu, piv)) (m : Fin M) : luDet lu piv m = (arr.elem m).det := by
  obtain ⟨-, h1, h2⟩ := factor_some h m
  rw [luDet_eq, h1, h2, ← det_eq hz]

theorem solves_unique {size : F → Q} (hz : IsSize size) (A B : Matrix (Fin n) (Fin n) F) (h : (zgetrf size A).info = 0) (X : Matrix (Fin n) (Fin n) F) :
    A * X = B ↔ X = zgetrs (zgetrf size A).a (zgetrf size A).piv B := by
  have hu : IsUnit A.det := isUnit_iff_ne_zero.2 ((info_iff hz A).1 h)
  have hs := solves hz A h B
  constructor
  · intro hX
    rw [← hs] at hX
    have := congrArg (A⁻¹ * ·) hX
    simpa [← Matrix.mul_assoc, Matrix.nonsing_inv_mul _ hu] using this
  · rintro rfl
    exact hs

/-- `lu_solve` of `lu_slow` gives the only solution, for right-hand sides with any order of elements. -/
theorem C88_solve_slow {fast : Bool} {size : F → Q} (hz : IsSize size) {arr after lu : Stack n M F} {piv : Fin M → Fin n → Fin n}
    (h : luFactor fast size arr = some (after, lu, piv)) (b : Stack n M F) (m : Fin M) (X : Matrix (Fin n) (Fin n) F) :
    arr.elem m * X = b.elem m ↔ X = (luSolveSlow lu piv b).elem m := by
  obtain ⟨h0, h1, h2⟩ := factor_some h m
  rw [solves_unique hz _ _ h0, ← h1, ← h2]
  rfl

/-- `lu_solve` of `lu_fast` gives the only solution if the right-hand side is not in the order of Fortran. Missing: right-hand sides in that order, for which it
is wrong (`C88_refuted_fortran`). -/
theorem C88_solve_fast_partial {fast : Bool} {size : F → Q} (hz : IsSize size) {arr after lu : Stack n M F} {piv : Fin M → Fin n → Fin n}
    (h : luFactor fast size arr = some (after, lu, piv)) (b : Stack n M F) (hb : b.layout ≠ .fortran) (junk : ℕ → F) (m : Fin M)
    (X : Matrix (Fin n) (Fin n) F) : arr.elem m * X = b.elem m ↔ X = (luSolveFast lu piv b junk).elem m := by
  obtain ⟨h0, h1, h2⟩ := factor_some h m
  rw [solves_unique hz _ _ h0, ← h1, ← h2, fast_elem _ _ _ _ hb]

omit [Zero Q] in
/-- The argument of `lu_factor` is overwritten with the factors, except by `lu_fast` when it is not in the order of Fortran. -/
theorem C88_argument {fast : Bool} {size : F → Q} {arr after lu : Stack n M F} {piv : Fin M → Fin n → Fin n}
    (h : luFactor fast size arr = some (after, lu, piv)) :
    (fast = true ∧ arr.layout ≠ .fortran → after = arr) ∧ (¬ (fast = true ∧ arr.layout ≠ .fortran) → after.elem = lu.elem) := by
  simp only [luFactor] at h
  by_cases hall : ∀ m, (zgetrf size (arr.elem m)).info = 0
  · rw [if_pos hall] at h
    simp only [Option.some.injEq, Prod.mk.injEq] at h
    obtain ⟨rfl, rfl, -⟩ := h
    exact ⟨fun hc => if_pos hc, fun hc => by rw [if_neg hc]⟩
  · rw [if_neg hall] at h
    exact absurd h (by simp)

/-- A single matrix in the order of Fortran as right-hand side: `lu_solve` of `lu_fast` solves the transposed system instead. -/
theorem C88_fortran {fast : Bool} {size : F → Q} (hz : IsSize size) {arr after lu : Stack n 1 F} {piv : Fin 1 → Fin n → Fin n}
    (h : luFactor fast size arr = some (after, lu, piv)) (b : Stack n 1 F) (hb : b.layout = .fortran) (junk : ℕ → F) :
    arr.elem 0 * ((luSolveFast lu piv b junk).elem 0).transpose = (b.elem 0).transpose := by
  obtain ⟨h0, h1, h2⟩ := factor_some h 0
  rw [solves_unique hz _ _ h0, ← h1, ← h2]
  have hm : (matrixAt (memory false b.elem junk) 0 : Matrix (Fin n) (Fin n) F) = (b.elem 0).transpose := by
    funext i j
    have hn : 0 < n := by have := i.2; omega
    have hlt := off_lt (M := 1) (m := 0) i.2 j.2 (by omega)
    have hmod := off_mod (j := (j : ℕ)) (m := 0) i.2
    have hdiv := off_div (j := (j : ℕ)) (m := 0) i.2
    simp only [Nat.mul_zero, Nat.add_zero] at hlt hmod hdiv
    simp only [matrixAt, memory, Nat.zero_add]
    rw [dif_pos ⟨hn, hlt⟩]
    simp only [Bool.false_eq_true, if_false, Matrix.transpose_apply]
    congr 1
    · congr 1
      simp [Nat.mod_one]
    · exact Fin.ext (by simp [hdiv])
    · exact Fin.ext (by simp [hmod])
  funext i j
  have hn : 0 < n := by have := i.2; omega
  have hij : (i : ℕ) + n * j < n * n := by have := off_lt (M := 1) (m := 0) i.2 j.2 (by omega); simpa using this
  have hmod := off_mod (j := (j : ℕ)) (m := 0) i.2
  have hdiv := off_div (j := (j : ℕ)) (m := 0) i.2
  simp only [Nat.mul_zero, Nat.add_zero] at hmod hdiv
  rw [Matrix.transpose_apply]
  simp only [luSolveFast, hb, pass, offset, ne_eq, not_true_eq_false, decide_false, Bool.false_eq_true, if_false]
  simp only [zero_lt_one, dite_true, Nat.zero_mul, Nat.mul_one, Fin.val_zero, Nat.add_zero, Fin.zero_eta]
  rw [hm]
  unfold writeMatrix
  rw [Nat.mul_comm, Nat.add_comm, dif_pos ⟨Nat.zero_le _, by simpa using hij, hn⟩]
  congr 1
  · exact Fin.ext (by simp [hmod])
  · exact Fin.ext (by simp [hdiv])

end

/-! ## Examples -/

theorem ratSize : IsSize (fun x : ℚ => |x|) := ⟨fun x => abs_nonneg x, fun _ => abs_eq_zero⟩

/-- A matrix that needs an interchange of rows. -/
def luA : Matrix (Fin 2) (Fin 2) ℚ := !![0, 2; 1, 1]

def luB : Matrix (Fin 2) (Fin 2) ℚ := !![1, 2; 3, 5]

/-- The arrays of these matrices alone. -/
def luArr (l : Layout) (A : Matrix (Fin 2) (Fin 2) ℚ) : Stack 2 1 ℚ := ⟨l, fun _ => A⟩

/-- All of the above on an example. -/
example : ∃ after lu piv, luFactor true (fun x : ℚ => |x|) (luArr .c luA) = some (after, lu, piv) ∧ luDet lu piv 0 = -2 ∧
    (luSolveFast lu piv (luArr .c luB) fun _ => 7).elem 0 = !![5 / 2, 4; 1 / 2, 1] := by
  have hf : (luFactor true (fun x : ℚ => |x|) (luArr .c luA)).isSome := (C88_factor true ratSize _).2 fun _ => by
    simp [luArr, luA, Matrix.det_fin_two]
  obtain ⟨⟨after, lu, piv⟩, h⟩ := Option.isSome_iff_exists.1 hf
  refine ⟨after, lu, piv, h, ?_, ?_⟩
  · rw [C88_det ratSize h]
    simp [luArr, luA, Matrix.det_fin_two]
  · refine ((C88_solve_fast_partial ratSize h (luArr .c luB) (by simp [luArr]) _ 0 _).1 ?_).symm
    ext i j
    fin_cases i <;> fin_cases j <;> simp [luArr, luA, luB, Matrix.mul_apply, Fin.sum_univ_two] <;> norm_num

/-- A singular matrix is reported. -/
example : luFactor false (fun x : ℚ => |x|) (luArr .c !![1, 2; 2, 4]) = none := by
  have := (C88_factor false ratSize (luArr .c !![1, 2; 2, 4])).1.mt (by
    push Not
    exact ⟨0, by simp [luArr, Matrix.det_fin_two]; norm_num⟩)
  simpa using this

theorem luFactored : ∃ after lu piv, luFactor true (fun x : ℚ => |x|) (luArr .c luA) = some (after, lu, piv) := by
  have hf : (luFactor true (fun x : ℚ => |x|) (luArr .c luA)).isSome := (C88_factor true ratSize _).2 fun _ => by
    simp [luArr, luA, Matrix.det_fin_two]
  obtain ⟨⟨after, lu, piv⟩, h⟩ := Option.isSome_iff_exists.1 hf
  exact ⟨after, lu, piv, h⟩

/-- `lu_solve` of `lu_fast` is wrong for right-hand sides in the order of Fortran. -/
theorem C88_refuted_fortran : ∃ (arr b : Stack 2 1 ℚ) (after lu : Stack 2 1 ℚ) (piv : Fin 1 → Fin 2 → Fin 2),
    luFactor true (fun x : ℚ => |x|) arr = some (after, lu, piv) ∧ ∀ junk, arr.elem 0 * (luSolveFast lu piv b junk).elem 0 ≠ b.elem 0 := by
  obtain ⟨after, lu, piv, h⟩ := luFactored
  refine ⟨luArr .c luA, luArr .fortran luB, after, lu, piv, h, fun junk hx => ?_⟩
  have ht := C88_fortran ratSize h (luArr .fortran luB) rfl junk
  generalize (luSolveFast lu piv (luArr .fortran luB) junk).elem 0 = X at hx ht
  have e1 := congrFun (congrFun hx 0) 0
  have e2 := congrFun (congrFun hx 0) 1
  have e3 := congrFun (congrFun hx 1) 0
  have f1 := congrFun (congrFun ht 0) 0
  have f2 := congrFun (congrFun ht 0) 1
  have f3 := congrFun (congrFun ht 1) 1
  simp [luArr, luA, luB, Matrix.mul_apply, Fin.sum_univ_two] at e1 e2 e3 f1 f2 f3
  linarith

/-- Neither can its results be used as right-hand sides, as they are in this order. -/
theorem C88_refuted_twice : ∃ (arr b : Stack 2 1 ℚ) (after lu : Stack 2 1 ℚ) (piv : Fin 1 → Fin 2 → Fin 2),
    luFactor true (fun x : ℚ => |x|) arr = some (after, lu, piv) ∧ b.layout = .c ∧ ∀ junk junk',
      let x := luSolveFast lu piv b junk
      arr.elem 0 * x.elem 0 = b.elem 0 ∧ arr.elem 0 * (luSolveFast lu piv x junk').elem 0 ≠ x.elem 0 := by
  obtain ⟨after, lu, piv, h⟩ := luFactored
  refine ⟨luArr .c luA, luArr .c luB, after, lu, piv, h, rfl, fun junk junk' => ?_⟩
  have hs := (C88_solve_fast_partial ratSize h (luArr .c luB) (by simp [luArr]) junk 0 _).2 rfl
  refine ⟨hs, fun hx => ?_⟩
  have ht := C88_fortran ratSize h (luSolveFast lu piv (luArr .c luB) junk) (by simp [luSolveFast, luArr]) junk'
  generalize (luSolveFast lu piv (luSolveFast lu piv (luArr .c luB) junk) junk').elem 0 = Y at hx ht
  generalize (luSolveFast lu piv (luArr .c luB) junk).elem 0 = X at hs hx ht
  have e := fun i j => congrFun (congrFun hs i) j
  have f := fun i j => congrFun (congrFun hx i) j
  have g := fun i j => congrFun (congrFun ht i) j
  simp [luArr, luA, luB, Matrix.mul_apply, Fin.sum_univ_two, Fin.forall_fin_two] at e f g
  linarith [e.1.1, e.1.2, e.2.1, e.2.2, f.1.1, f.1.2, f.2.1, f.2.2, g.1.1, g.1.2, g.2.1, g.2.2]

/-- `lu_slow` leaves the factors in its argument, which `Check_Denorminator` takes for the matrices. -/
theorem C88_refuted_altered : ∃ (arr : Stack 2 1 ℚ) (after lu : Stack 2 1 ℚ) (piv : Fin 1 → Fin 2 → Fin 2),
    luFactor false (fun x : ℚ => |x|) arr = some (after, lu, piv) ∧ (after.elem 0).det ≠ (arr.elem 0).det := by
  have hf : (luFactor false (fun x : ℚ => |x|) (luArr .c luA)).isSome := (C88_factor false ratSize _).2 fun _ => by
    simp [luArr, luA, Matrix.det_fin_two]
  obtain ⟨⟨after, lu, piv⟩, h⟩ := Option.isSome_iff_exists.1 hf
  refine ⟨luArr .c luA, after, lu, piv, h, ?_⟩
  rw [congrFun ((C88_argument h).2 (by simp)) 0, (factor_some h 0).2.1]
  have : (zgetrf (fun x : ℚ => |x|) luA).a = !![1, 1; 0, 2] := by
    have h00 : (zgetrf (fun x : ℚ => |x|) luA).a 0 0 = 1 := by decide +kernel
    have h01 : (zgetrf (fun x : ℚ => |x|) luA).a 0 1 = 1 := by decide +kernel
    have h10 : (zgetrf (fun x : ℚ => |x|) luA).a 1 0 = 0 := by decide +kernel
    have h11 : (zgetrf (fun x : ℚ => |x|) luA).a 1 1 = 2 := by decide +kernel
    ext i j
    fin_cases i <;> fin_cases j <;> simpa
  simp only [luArr]
  rw [this]
  simp [luA, Matrix.det_fin_two]
  norm_num

/-! ## The check of the denominators -/

section
variable {Q F : Type} [LinearOrder Q] [Zero Q]

/-- `DenorminatorTouchZero` is raised exactly if the smallest determinant, by real parts first, has a negative real part and a small imaginary part. -/
theorem C88_check (re im : F → Q) (small : Q) (l : List F) : checkDenominator re im small l = true ↔
    ∃ x ∈ l, (∀ y ∈ l, re x < re y ∨ re x = re y ∧ im x ≤ im y) ∧ re x < 0 ∧ im x < small :=
  check_iff re im small l

/-- If all determinants are real: exactly if one of them is negative. -/
theorem C88_check_real (re im : F → Q) (small : Q) (hs : 0 < small) (l : List F) (hl : ∀ x ∈ l, im x = 0) :
    checkDenominator re im small l = true ↔ ∃ x ∈ l, re x < 0 := by
  constructor
  · intro h
    obtain ⟨x, hx, -, h0, -⟩ := (C88_check re im small l).1 h
    exact ⟨x, hx, h0⟩
  · rintro ⟨x, hx, h0⟩
    cases hm : npMin re im l with
    | none =>
      cases l with
      | nil => simp at hx
      | cons a l => simp [npMin] at hm
    | some y =>
      obtain ⟨h1, h2⟩ := npMin_facts re im l y hm
      refine (C88_check re im small l).2 ⟨y, h1, h2, ?_, by rw [hl y h1]; exact hs⟩
      rcases h2 x hx with h | h
      · exact lt_trans h h0
      · rw [h.1]; exact h0

end

/-- A determinant that is real and negative goes unnoticed beside one with a smaller real part. -/
theorem C88_refuted_unnoticed : checkDenominator Complex.re Complex.im (1 / 10000) [-2 + Complex.I, -1] = false := by
  rw [Bool.eq_false_iff]
  intro h
  obtain ⟨x, hx, h1, h2, h3⟩ := (C88_check _ _ _ _).1 h
  have h4 := h1 (-2 + Complex.I) (by simp)
  simp only [List.mem_cons, List.not_mem_nil, or_false] at hx
  rcases hx with rfl | rfl
  · norm_num at h3
  · norm_num at h4

/-- The exception is raised for a determinant far from the real axis, if its imaginary part is negative. -/
theorem C88_refuted_alarm : checkDenominator Complex.re Complex.im (1 / 10000) [-1 - 5 * Complex.I, 1] = true := by
  refine (C88_check _ _ _ _).2 ⟨-1 - 5 * Complex.I, by simp, ?_, by norm_num, by norm_num⟩
  intro y hy
  simp only [List.mem_cons, List.not_mem_nil, or_false] at hy
  rcases hy with rfl | rfl
  · right; simp
  · left; norm_num

end Feyn
