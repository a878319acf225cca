import Verif.Spec.Lu
import Mathlib.LinearAlgebra.Matrix.Determinant.Basic
import Mathlib.LinearAlgebra.Matrix.Block
import Mathlib.Tactic.Ring
import Mathlib.Tactic.Linarith
import Mathlib.Tactic.FieldSimp

/-!
# What the factorisation computes
-/

namespace Feyn
namespace Lu

section
variable {α : Type} {n : ℕ}

theorem pass_ind (f : α → Fin n → α) (s : α) (P : ℕ → α → Prop) (h0 : P 0 s)
    (hs : ∀ (j : Fin n) (a : α), P j a → P (j + 1) (f a j)) : ∀ k ≤ n, P k (pass f s k) := by
  intro k
  induction k with
  | zero => intro _; exact h0
  | succ j ih =>
    intro hj
    have hj' : j < n := hj
    simp only [pass, dif_pos hj']
    exact hs ⟨j, hj'⟩ _ (ih (le_of_lt hj'))

end

section
variable {Q F : Type} [LinearOrder Q] [Field F] [DecidableEq F] {n M : ℕ}

omit [DecidableEq F] in
theorem pivotRow_facts [Zero Q] {size : F → Q} (hz : IsSize size) (a : Matrix (Fin n) (Fin n) F) (j : Fin n) :
    j ≤ pivotRow size a j ∧ (a (pivotRow size a j) j = 0 → ∀ i, j ≤ i → a i j = 0) := by
  have := pass_ind (fun (p : Fin n) i => if j < i ∧ size (a p j) < size (a i j) then i else p) j
    (fun k p => j ≤ p ∧ ∀ i : Fin n, j ≤ i → ((i : ℕ) < k ∨ i = j) → size (a i j) ≤ size (a p j))
    ⟨le_refl _, fun i _ h2 => by
      rcases h2 with h2 | rfl
      · omega
      · exact le_refl _⟩
    (by
      rintro k p ⟨h1, h2⟩
      split
      · rename_i hc
        refine ⟨le_of_lt hc.1, fun i hi hk => ?_⟩
        rcases hk with hk | rfl
        · rcases Nat.lt_succ_iff_lt_or_eq.1 hk with hk | hk
          · exact le_trans (h2 i hi (.inl hk)) (le_of_lt hc.2)
          · have : i = k := Fin.ext hk
            rw [this]
        · exact le_trans (h2 i hi (.inr rfl)) (le_of_lt hc.2)
      · rename_i hc
        refine ⟨h1, fun i hi hk => ?_⟩
        rcases hk with hk | rfl
        · rcases Nat.lt_succ_iff_lt_or_eq.1 hk with hk | hk
          · exact h2 i hi (.inl hk)
          · have : i = k := Fin.ext hk
            subst this
            rcases eq_or_lt_of_le hi with h | h
            · rw [← h]; exact h2 j (le_refl _) (.inr rfl)
            · exact not_lt.1 fun hh => hc ⟨h, hh⟩
        · exact h2 i hi (.inr rfl)) n (le_refl n)
  refine ⟨this.1, fun h0 i hi => ?_⟩
  have h := this.2 i hi (.inl i.2)
  change size (a i j) ≤ size (a (pivotRow size a j) j) at h
  rw [h0, (hz.eq_zero 0).2 rfl] at h
  exact (hz.eq_zero _).1 (le_antisymm h (hz.nonneg _))

/-- The two triangles. -/
def lower (a : Matrix (Fin n) (Fin n) F) : Matrix (Fin n) (Fin n) F := fun i l => if l < i then a i l else if l = i then 1 else 0

def upper (a : Matrix (Fin n) (Fin n) F) : Matrix (Fin n) (Fin n) F := fun l k => if l ≤ k then a l k else 0

/-- The row interchanges as a permutation. -/
def perm (piv : Fin n → Fin n) (k : ℕ) : Equiv.Perm (Fin n) := pass (fun s j => s * Equiv.swap j (piv j)) 1 k

theorem perm_succ (piv : Fin n → Fin n) (j : Fin n) : perm piv (j + 1) = perm piv j * Equiv.swap j (piv j) := by
  simp only [perm, pass, j.2, dif_pos]

theorem perm_congr {piv piv' : Fin n → Fin n} {k : ℕ} (h : ∀ j : Fin n, (j : ℕ) < k → piv j = piv' j) : perm piv k = perm piv' k := by
  induction k with
  | zero => rfl
  | succ j ih =>
    unfold perm pass
    split
    · rename_i hj
      have := ih fun i hi => h i (Nat.lt_succ_of_lt hi)
      unfold perm at this
      rw [this, h ⟨j, hj⟩ (Nat.lt_succ_self j)]
    · exact ih fun i hi => h i (Nat.lt_succ_of_lt hi)

/-- State of the factorisation before pass `k`: the interchanged matrix is the product of the finished columns and rows, plus the rest. -/
structure Partly (A : Matrix (Fin n) (Fin n) F) (k : ℕ) (s : LuState n F) : Prop where
  eq : ∀ i c, A (perm s.piv k i) c =
    (∑ l : Fin n, if (l : ℕ) < k then lower s.a i l * upper s.a l c else 0) + if k ≤ (i : ℕ) ∧ k ≤ (c : ℕ) then s.a i c else 0
  info : s.info = 0 ↔ ∀ j : Fin n, (j : ℕ) < k → s.a j j ≠ 0
  piv : ∀ j : Fin n, (j : ℕ) < k → j ≤ s.piv j

omit [DecidableEq F] in
theorem sum_step (f : Fin n → F) (j : Fin n) :
    (∑ l : Fin n, if (l : ℕ) < (j : ℕ) + 1 then f l else 0) = (∑ l : Fin n, if (l : ℕ) < (j : ℕ) then f l else 0) + f j := by
  have : ∀ l : Fin n, (if (l : ℕ) < (j : ℕ) + 1 then f l else 0) = (if (l : ℕ) < (j : ℕ) then f l else 0) + if l = j then f l else 0 := by
    intro l
    rcases lt_trichotomy (l : ℕ) (j : ℕ) with h | h | h
    · rw [if_pos (by omega), if_pos h, if_neg (by rintro rfl; omega), add_zero]
    · have : l = j := Fin.ext h
      subst this
      simp
    · rw [if_neg (by omega), if_neg (by omega), if_neg (by rintro rfl; omega), add_zero]
  rw [Finset.sum_congr rfl fun l _ => this l, Finset.sum_add_distrib, Finset.sum_ite_eq' Finset.univ j]
  simp

omit [DecidableEq F] in
theorem pivotRow_zero [Zero Q] {size : F → Q} (hz : IsSize size) (a : Matrix (Fin n) (Fin n) F) (j : Fin n)
    (h0 : a (pivotRow size a j) j = 0) : pivotRow size a j = j := by
  have hall := (pivotRow_facts hz a j).2 h0
  exact pass_ind (fun (p : Fin n) i => if j < i ∧ size (a p j) < size (a i j) then i else p) j (fun _ p => p = j) rfl
    (by
      rintro k p rfl
      have : ¬ (p < k ∧ size (a p p) < size (a k p)) := by
        rintro ⟨h1, h2⟩
        rw [hall k (le_of_lt h1), hall p (le_refl _)] at h2
        exact lt_irrefl _ h2
      rw [if_neg this]) n (le_refl n)

theorem luPass_facts [Zero Q] {size : F → Q} (hz : IsSize size) (s : LuState n F) (j : Fin n) :
    (∀ i k, i ≤ j ∨ k < j → (luPass size s j).a i k = s.a (Equiv.swap j (pivotRow size s.a j) i) k) ∧
    (∀ i, j < i → s.a (Equiv.swap j (pivotRow size s.a j) i) j = (luPass size s j).a i j * s.a (pivotRow size s.a j) j) ∧
    (∀ i k, j < i → j < k → s.a (Equiv.swap j (pivotRow size s.a j) i) k =
      (luPass size s j).a i k + (luPass size s j).a i j * s.a (pivotRow size s.a j) k) := by
  by_cases h0 : s.a (pivotRow size s.a j) j = 0
  · have hp := pivotRow_zero hz s.a j h0
    have hall := (pivotRow_facts hz s.a j).2 h0
    have ha : (luPass size s j).a = subtractProduct s.a j := by simp [luPass, h0]
    rw [ha, hp]
    simp only [Equiv.swap_self, Equiv.refl_apply]
    refine ⟨fun i k h => ?_, fun i h => ?_, fun i k h1 h2 => ?_⟩
    · unfold subtractProduct
      rw [if_neg]
      rintro ⟨h1, h2⟩
      rcases h with h | h
      · exact absurd h (not_le.2 h1)
      · exact absurd h (not_lt.2 (le_of_lt h2))
    · rw [hall i (le_of_lt h), hall j (le_refl _), mul_zero]
    · unfold subtractProduct
      rw [if_pos ⟨h1, h2⟩, if_neg (by simp), hall i (le_of_lt h1)]
      ring
  · have hpj := (pivotRow_facts hz s.a j).1
    have ha : (luPass size s j).a = subtractProduct (divideColumn (swapRows s.a j (pivotRow size s.a j)) j) j := by simp [luPass, h0]
    rw [ha]
    have hjj : swapRows s.a j (pivotRow size s.a j) j = s.a (pivotRow size s.a j) := by simp [swapRows]
    refine ⟨fun i k h => ?_, fun i h => ?_, fun i k h1 h2 => ?_⟩
    · unfold subtractProduct
      rw [if_neg]
      · unfold divideColumn
        rw [if_neg]
        · rfl
        · rintro ⟨h1, h2⟩
          rcases h with h | h
          · exact absurd h (not_le.2 h1)
          · exact absurd h2 (ne_of_lt h)
      · rintro ⟨h1, h2⟩
        rcases h with h | h
        · exact absurd h (not_le.2 h1)
        · exact absurd h (not_lt.2 (le_of_lt h2))
    · unfold subtractProduct
      rw [if_neg (by simp)]
      unfold divideColumn
      rw [if_pos ⟨h, rfl⟩, hjj, div_mul_cancel₀ _ h0]
      rfl
    · unfold subtractProduct
      rw [if_pos ⟨h1, h2⟩, if_neg (by simp)]
      have e1 : divideColumn (swapRows s.a j (pivotRow size s.a j)) j i k = s.a (Equiv.swap j (pivotRow size s.a j) i) k := by
        unfold divideColumn
        rw [if_neg (fun h => absurd h.2 (ne_of_gt h2))]
        rfl
      have e2 : divideColumn (swapRows s.a j (pivotRow size s.a j)) j j k = s.a (pivotRow size s.a j) k := by
        unfold divideColumn
        rw [if_neg (by simp), hjj]
      rw [e1, e2]
      ring

theorem swap_lt {j p i : Fin n} (hp : j ≤ p) (hi : i < j) : Equiv.swap j p i = i :=
  Equiv.swap_apply_of_ne_of_ne (ne_of_lt hi) (ne_of_lt (lt_of_lt_of_le hi hp))

theorem swap_le {j p i : Fin n} (hp : j ≤ p) : j ≤ Equiv.swap j p i ↔ j ≤ i := by
  rcases lt_or_ge i j with h | h
  · rw [swap_lt hp h]
  · refine ⟨fun _ => h, fun _ => ?_⟩
    rcases eq_or_ne i j with rfl | h1
    · simpa using hp
    · rcases eq_or_ne i p with rfl | h2
      · simp
      · rwa [Equiv.swap_apply_of_ne_of_ne h1 h2]

theorem partly_step [Zero Q] {size : F → Q} (hz : IsSize size) (A : Matrix (Fin n) (Fin n) F) (j : Fin n) (s : LuState n F)
    (h : Partly A j s) : Partly A (j + 1) (luPass size s j) := by
  obtain ⟨f1, f2, f3⟩ := luPass_facts hz s j
  have hp := (pivotRow_facts hz s.a j).1
  set p := pivotRow size s.a j with hpd
  set s' := luPass size s j with hs'
  have hpiv : s'.piv = Function.update s.piv j p := rfl
  have hpj : s'.piv j = p := by rw [hpiv]; simp
  have hlt : ∀ i : Fin n, (i : ℕ) < j → s'.piv i = s.piv i := fun i hi => by
    rw [hpiv, Function.update_of_ne (by rintro rfl; omega)]
  have hperm : perm s'.piv (j + 1) = perm s.piv j * Equiv.swap j p := by
    rw [perm_succ, hpj, perm_congr hlt]
  have hdj : s'.a j j = s.a p j := by
    rw [f1 j j (.inl (le_refl _))]; simp
  have hrow : ∀ k, s'.a j k = s.a p k := fun k => by
    rw [f1 j k (.inl (le_refl _))]; simp
  refine ⟨fun i k => ?_, ?_, ?_⟩
  · rw [hperm, Equiv.Perm.mul_apply, h.eq, sum_step, add_assoc]
    congr 1
    · refine Finset.sum_congr rfl fun l _ => ?_
      by_cases hl : (l : ℕ) < j
      · rw [if_pos hl, if_pos hl]
        have hl' : l < j := hl
        have eu : upper s'.a l k = upper s.a l k := by
          unfold upper
          rw [f1 l k (.inl (le_of_lt hl')), swap_lt hp hl']
        have el : lower s'.a i l = lower s.a (Equiv.swap j p i) l := by
          unfold lower
          rw [f1 i l (.inr hl')]
          rcases lt_or_ge i j with hi | hi
          · rw [swap_lt hp hi]
          · have h2 := (swap_le (i := i) hp).2 hi
            rw [if_pos (lt_of_lt_of_le hl' hi), if_pos (lt_of_lt_of_le hl' h2)]
        rw [eu, el]
      · rw [if_neg hl, if_neg hl]
    · have hle : ((j : ℕ) ≤ ((Equiv.swap j p i : Fin n) : ℕ)) ↔ j ≤ i := swap_le hp
      rcases lt_or_ge k j with hk | hk
      · have : ¬ ((j : ℕ) ≤ (k : ℕ)) := not_le.2 hk
        rw [if_neg (fun h => this h.2), if_neg (fun h => absurd (show (j : ℕ) ≤ (k : ℕ) by omega) this)]
        unfold upper
        rw [if_neg (not_le.2 hk)]
        simp
      · have hk' : (j : ℕ) ≤ (k : ℕ) := hk
        rcases lt_trichotomy i j with hi | hi | hi
        · rw [if_neg (fun h => absurd (hle.1 h.1) (not_le.2 hi)), if_neg (fun h => by have := hi; have : (i : ℕ) < j := hi; omega)]
          unfold lower
          rw [if_neg (not_lt.2 (le_of_lt hi)), if_neg (ne_of_gt hi)]
          simp
        · subst hi
          rw [if_pos ⟨hle.2 (le_refl _), hk'⟩, if_neg (fun h => by omega)]
          unfold lower upper
          rw [if_neg (lt_irrefl _), if_pos rfl, if_pos hk, hrow]
          simp
        · have hi' : (j : ℕ) < i := hi
          rw [if_pos ⟨hle.2 (le_of_lt hi), hk'⟩]
          unfold lower upper
          rw [if_pos hi, if_pos hk, hrow]
          rcases eq_or_lt_of_le hk with rfl | hk2
          · rw [if_neg (fun h => by omega), add_zero]
            exact f2 i hi
          · have : (j : ℕ) < k := hk2
            rw [if_pos ⟨by omega, by omega⟩, f3 i k hi hk2]
            ring
  · have hinfo : s'.info = if s.a p j = 0 ∧ s.info = 0 then (j : ℕ) + 1 else s.info := rfl
    rw [hinfo]
    have hold : ∀ i : Fin n, (i : ℕ) < j → s'.a i i = s.a i i := fun i hi => by
      have hi' : i < j := hi
      rw [f1 i i (.inl (le_of_lt hi')), swap_lt hp hi']
    constructor
    · intro h0 i hi
      split at h0
      · omega
      · rename_i hc
        rcases Nat.lt_succ_iff_lt_or_eq.1 hi with hi | hi
        · rw [hold i hi]; exact h.info.1 h0 i hi
        · have : i = j := Fin.ext hi
          subst this
          rw [hdj]
          exact fun e => hc ⟨e, h0⟩
    · intro hall
      have h1 := hall j (Nat.lt_succ_self _)
      rw [hdj] at h1
      rw [if_neg (fun e => h1 e.1)]
      exact h.info.2 fun i hi => by rw [← hold i hi]; exact hall i (Nat.lt_succ_of_lt hi)
  · intro i hi
    rcases Nat.lt_succ_iff_lt_or_eq.1 hi with hi | hi
    · rw [hlt i hi]; exact h.piv i hi
    · have : i = j := Fin.ext hi
      subst this
      rw [hpj]; exact hp

theorem zgetrf_facts [Zero Q] {size : F → Q} (hz : IsSize size) (A : Matrix (Fin n) (Fin n) F) :
    Partly A n (zgetrf size A) :=
  pass_ind (luPass size) ⟨A, id, 0⟩ (Partly A)
    ⟨fun i c => by simp [perm, pass], by simp, by simp⟩ (partly_step hz A) n (le_refl n)

/-- The factorisation. -/
theorem factors [Zero Q] {size : F → Q} (hz : IsSize size) (A : Matrix (Fin n) (Fin n) F) :
    A.submatrix (perm (zgetrf size A).piv n) id = lower (zgetrf size A).a * upper (zgetrf size A).a := by
  ext i c
  have := (zgetrf_facts hz A).eq i c
  rw [Matrix.submatrix_apply, id, this, if_neg (by have := i.2; omega), add_zero, Matrix.mul_apply]
  exact Finset.sum_congr rfl fun l _ => by rw [if_pos l.2]

omit [DecidableEq F] in
theorem det_lower (a : Matrix (Fin n) (Fin n) F) : (lower a).det = 1 := by
  rw [Matrix.det_of_isLowerTriangular]
  · exact Finset.prod_eq_one fun i _ => by simp [lower]
  · intro i k (h : i < k)
    simp only [lower]
    rw [if_neg (not_lt.2 (le_of_lt h)), if_neg (ne_of_gt h)]

omit [DecidableEq F] in
theorem det_upper (a : Matrix (Fin n) (Fin n) F) : (upper a).det = ∏ i, a i i := by
  rw [Matrix.det_of_isUpperTriangular]
  · exact Finset.prod_congr rfl fun i _ => by simp [upper]
  · intro i k (h : k < i)
    simp only [upper]
    rw [if_neg (not_le.2 h)]

omit [DecidableEq F] in
theorem sign_perm (piv : Fin n → Fin n) :
    ∀ k ≤ n, ((Equiv.Perm.sign (perm piv k) : ℤ) : F) = ∏ j : Fin n, if (j : ℕ) < k ∧ piv j ≠ j then -1 else 1 := by
  intro k
  induction k with
  | zero => intro _; simp [perm, pass]
  | succ k ih =>
    intro hk
    have := perm_succ piv ⟨k, hk⟩
    rw [this, Equiv.Perm.sign_mul]
    push_cast
    rw [ih (by omega)]
    have e : ∀ j : Fin n, (if (j : ℕ) < k + 1 ∧ piv j ≠ j then (-1 : F) else 1) =
        (if (j : ℕ) < k ∧ piv j ≠ j then -1 else 1) * if j = ⟨k, hk⟩ then (if piv ⟨k, hk⟩ ≠ ⟨k, hk⟩ then -1 else 1) else 1 := by
      intro j
      rcases lt_trichotomy (j : ℕ) k with h | h | h
      · have hne : j ≠ ⟨k, hk⟩ := by rintro rfl; simp at h
        rw [if_neg hne]
        simp [h, Nat.lt_succ_of_lt h]
      · have : j = ⟨k, hk⟩ := Fin.ext h
        subst this
        simp
      · have hne : j ≠ ⟨k, hk⟩ := by rintro rfl; simp at h
        rw [if_neg hne, if_neg (fun h => by omega), if_neg (fun h => by omega), mul_one]
    rw [Finset.prod_congr rfl fun j _ => e j, Finset.prod_mul_distrib, Finset.prod_ite_eq' Finset.univ]
    congr 1
    simp only [Finset.mem_univ, if_true]
    by_cases hp : piv ⟨k, hk⟩ = ⟨k, hk⟩
    · simp [hp]
    · rw [Equiv.Perm.sign_swap (Ne.symm hp)]
      simp [hp]

omit [DecidableEq F] in
theorem luDet_eq {M : ℕ} (lu : Stack n M F) (piv : Fin M → Fin n → Fin n) (m : Fin M) :
    luDet lu piv m = (∏ j : Fin n, if piv m j ≠ j then -1 else 1) * ∏ j, lu.elem m j j := by
  have : ∀ k ≤ n, pass (fun det j => if piv m j ≠ j then -det * lu.elem m j j else det * lu.elem m j j) (1 : F) k =
      ∏ j : Fin n, if (j : ℕ) < k then (if piv m j ≠ j then -1 else 1) * lu.elem m j j else 1 := by
    intro k
    induction k with
    | zero => intro _; simp [pass]
    | succ k ih =>
      intro hk
      have hk' : k < n := hk
      simp only [pass, dif_pos hk']
      rw [ih (by omega)]
      have e : ∀ j : Fin n, (if (j : ℕ) < k + 1 then (if piv m j ≠ j then (-1 : F) else 1) * lu.elem m j j else 1) =
          (if (j : ℕ) < k then (if piv m j ≠ j then -1 else 1) * lu.elem m j j else 1) *
            if j = ⟨k, hk⟩ then (if piv m ⟨k, hk⟩ ≠ ⟨k, hk⟩ then -1 else 1) * lu.elem m ⟨k, hk⟩ ⟨k, hk⟩ else 1 := by
        intro j
        rcases lt_trichotomy (j : ℕ) k with h | h | h
        · have hne : j ≠ ⟨k, hk⟩ := by rintro rfl; simp at h
          rw [if_neg hne, if_pos h, if_pos (Nat.lt_succ_of_lt h), mul_one]
        · have : j = ⟨k, hk⟩ := Fin.ext h
          subst this
          simp
        · have hne : j ≠ ⟨k, hk⟩ := by rintro rfl; simp at h
          rw [if_neg hne, if_neg (by omega), if_neg (by omega), mul_one]
      rw [Finset.prod_congr rfl fun j _ => e j, Finset.prod_mul_distrib, Finset.prod_ite_eq' Finset.univ]
      simp only [Finset.mem_univ, if_true]
      split <;> ring
  have h := this n (le_refl n)
  unfold luDet
  rw [h, ← Finset.prod_mul_distrib]
  exact Finset.prod_congr rfl fun j _ => by rw [if_pos j.2]

/-- The determinant. -/
theorem det_eq [Zero Q] {size : F → Q} (hz : IsSize size) (A : Matrix (Fin n) (Fin n) F) :
    A.det = (∏ j : Fin n, if (zgetrf size A).piv j ≠ j then -1 else 1) * ∏ j, (zgetrf size A).a j j := by
  have h := congrArg Matrix.det (factors hz A)
  rw [Matrix.det_permute, Matrix.det_mul, det_lower, det_upper, one_mul] at h
  have hs := sign_perm (F := F) (zgetrf size A).piv n (le_refl n)
  have e : ∀ j : Fin n, (if (j : ℕ) < n ∧ (zgetrf size A).piv j ≠ j then (-1 : F) else 1) = if (zgetrf size A).piv j ≠ j then -1 else 1 := by
    intro j; simp
  rw [Finset.prod_congr rfl fun j _ => e j] at hs
  rw [← hs, ← h, ← mul_assoc]
  have : (((Equiv.Perm.sign (perm (zgetrf size A).piv n) : ℤ)) : F) * ((Equiv.Perm.sign (perm (zgetrf size A).piv n) : ℤ) : F) = 1 := by
    rw [← Int.cast_mul, ← Units.val_mul, Int.units_mul_self]
    simp
  rw [this, one_mul]

theorem info_iff [Zero Q] {size : F → Q} (hz : IsSize size) (A : Matrix (Fin n) (Fin n) F) : (zgetrf size A).info = 0 ↔ A.det ≠ 0 := by
  rw [(zgetrf_facts hz A).info, det_eq hz A, mul_ne_zero_iff, Finset.prod_ne_zero_iff, Finset.prod_ne_zero_iff]
  constructor
  · exact fun h => ⟨fun j _ => by split <;> simp, fun j _ => h j j.2⟩
  · exact fun h j _ => h.2 j (Finset.mem_univ j)

end
end Lu
end Feyn
