import Verif.Proof.LuSolve

/-!
# Arrays of matrices in memory, and the smallest determinant
-/

namespace Feyn
namespace Lu

section
variable {Q F : Type} [LinearOrder Q] [Field F] [DecidableEq F] {n M : ℕ}

theorem off_lt {n M i j m : ℕ} (hi : i < n) (hj : j < n) (hm : m < M) : i + n * j + n * n * m < n * n * M := by
  have h1 : n * (j + 1) ≤ n * n := Nat.mul_le_mul (le_refl n) hj
  have h2 : n * n * (m + 1) ≤ n * n * M := Nat.mul_le_mul (le_refl _) hm
  rw [Nat.mul_add, Nat.mul_one] at h1 h2
  omega

theorem off_mod {n i j m : ℕ} (hi : i < n) : (i + n * j + n * n * m) % n = i := by
  rw [show i + n * j + n * n * m = i + n * (j + n * m) by ring, Nat.add_mul_mod_self_left, Nat.mod_eq_of_lt hi]

theorem off_div {n i j m : ℕ} (hi : i < n) : (i + n * j + n * n * m) / n = j + n * m := by
  rw [show i + n * j + n * n * m = i + n * (j + n * m) by ring, Nat.add_mul_div_left _ _ (by omega), Nat.div_eq_of_lt hi, Nat.zero_add]

omit [Field F] [DecidableEq F] in
theorem memory_fortran (e : Fin M → Matrix (Fin n) (Fin n) F) (junk : ℕ → F) (m : Fin M) (i j : Fin n) :
    memory true e junk (offset n M true i j m) = e m i j := by
  have hi := i.2
  have hj := j.2
  have hn : 0 < n := by omega
  unfold memory offset
  simp only [if_true]
  rw [dif_pos ⟨hn, off_lt hi hj m.2⟩]
  have e1 : ((i : ℕ) + n * j + n * n * m) / (n * n) = m := by
    rw [← Nat.div_div_eq_div_mul, off_div hi, Nat.add_mul_div_left _ _ hn, Nat.div_eq_of_lt hj, Nat.zero_add]
  have e2 : ((i : ℕ) + n * j + n * n * m) / n % n = j := by
    rw [off_div hi, Nat.add_mul_mod_self_left, Nat.mod_eq_of_lt hj]
  congr 1
  · congr 1
  · exact Fin.ext (off_mod hi)
  · exact Fin.ext e2

omit [Field F] [DecidableEq F] in
theorem write_same (mem : ℕ → F) (m : Fin M) (a : Matrix (Fin n) (Fin n) F) (i j : Fin n) :
    writeMatrix mem (offset n M true 0 0 m) a (offset n M true i j m) = a i j := by
  have hi := i.2
  have hj := j.2
  have hn : 0 < n := by omega
  have hb : n * ((j : ℕ) + 1) ≤ n * n := Nat.mul_le_mul (le_refl n) hj
  rw [Nat.mul_add, Nat.mul_one] at hb
  unfold writeMatrix offset
  simp only [if_true, Nat.mul_zero, Nat.zero_add]
  rw [dif_pos ⟨by omega, by omega, hn⟩]
  have e0 : (i : ℕ) + n * j + n * n * m - n * n * m = i + n * j := by omega
  congr 1
  · refine Fin.ext ?_
    simp only [e0]
    rw [Nat.add_mul_mod_self_left, Nat.mod_eq_of_lt hi]
  · refine Fin.ext ?_
    simp only [e0]
    rw [Nat.add_mul_div_left _ _ hn, Nat.div_eq_of_lt hi, Nat.zero_add]

omit [Field F] [DecidableEq F] in
theorem write_other (mem : ℕ → F) (m m' : Fin M) (h : m' ≠ m) (a : Matrix (Fin n) (Fin n) F) (i j : Fin n) :
    writeMatrix mem (offset n M true 0 0 m) a (offset n M true i j m') = mem (offset n M true i j m') := by
  have hi := i.2
  have hj := j.2
  have hb : n * ((j : ℕ) + 1) ≤ n * n := Nat.mul_le_mul (le_refl n) hj
  rw [Nat.mul_add, Nat.mul_one] at hb
  unfold writeMatrix offset
  simp only [if_true, Nat.mul_zero, Nat.zero_add]
  rw [dif_neg]
  rintro ⟨h1, h2, -⟩
  have hne : (m' : ℕ) ≠ m := fun e => h (Fin.ext e)
  rcases Nat.lt_or_gt_of_ne hne with h3 | h3
  · have : n * n * ((m' : ℕ) + 1) ≤ n * n * m := Nat.mul_le_mul (le_refl _) h3
    rw [Nat.mul_add, Nat.mul_one] at this
    omega
  · have : n * n * ((m : ℕ) + 1) ≤ n * n * m' := Nat.mul_le_mul (le_refl _) h3
    rw [Nat.mul_add, Nat.mul_one] at this
    omega

theorem fast_elem (lu : Stack n M F) (piv : Fin M → Fin n → Fin n) (b : Stack n M F) (junk : ℕ → F) (hb : b.layout ≠ .fortran) (m : Fin M) :
    (luSolveFast lu piv b junk).elem m = zgetrs (lu.elem m) (piv m) (b.elem m) := by
  have hd : decide (b.layout ≠ .fortran) = true := decide_eq_true hb
  have := pass_ind (fun mem (m : Fin M) => writeMatrix mem (offset n M true 0 0 m) (zgetrs (lu.elem m) (piv m) (matrixAt mem (offset n M true 0 0 m))))
    (memory true b.elem junk)
    (fun k mem => ∀ (m : Fin M) (i j : Fin n), mem (offset n M true i j m) = if (m : ℕ) < k then zgetrs (lu.elem m) (piv m) (b.elem m) i j else b.elem m i j)
    (fun m i j => by simp [memory_fortran])
    (by
      intro k mem h m i j
      by_cases hm : m = k
      · subst hm
        rw [write_same, if_pos (Nat.lt_succ_self _)]
        have : (matrixAt mem (offset n M true 0 0 m) : Matrix (Fin n) (Fin n) F) = b.elem m := by
          funext i j
          have := h m i j
          rw [if_neg (lt_irrefl _)] at this
          rw [← this]
          unfold matrixAt offset
          simp only [if_true]
          congr 1
          ring
        rw [this]
      · have hne : (m : ℕ) ≠ k := fun e => hm (Fin.ext e)
        rw [write_other _ _ _ hm, h m i j]
        by_cases hk : (m : ℕ) < k
        · rw [if_pos hk, if_pos (by omega)]
        · rw [if_neg hk, if_neg (by omega)]) M (le_refl M)
  funext i j
  have h := this m i j
  rw [if_pos m.2] at h
  rw [← h]
  simp only [luSolveFast, hd]

variable (re im : F → Q)

/-- Not larger, in the order of numpy. -/
def NpLe (x y : F) : Prop := re x < re y ∨ re x = re y ∧ im x ≤ im y

omit [DecidableEq F] [Field F] in
theorem npLe_of_not {x y : F} (h : ¬ npLess re im y x) : NpLe re im x y := by
  unfold npLess at h
  push Not at h
  rcases lt_or_eq_of_le h.1 with h1 | h1
  · exact .inl h1
  · exact .inr ⟨h1, h.2 h1.symm⟩

omit [DecidableEq F] [Field F] in
theorem npLe_trans {x y z : F} (h1 : NpLe re im x y) (h2 : NpLe re im y z) : NpLe re im x z := by
  rcases h1 with h1 | ⟨h1, h1'⟩ <;> rcases h2 with h2 | ⟨h2, h2'⟩
  · exact .inl (lt_trans h1 h2)
  · exact .inl (h2 ▸ h1)
  · exact .inl (h1 ▸ h2)
  · exact .inr ⟨h1.trans h2, le_trans h1' h2'⟩

omit [DecidableEq F] [Field F] in
theorem npLe_of_less {x y : F} (h : npLess re im x y) : NpLe re im x y := by
  rcases h with h | ⟨h, h'⟩
  · exact .inl h
  · exact .inr ⟨h, le_of_lt h'⟩

omit [DecidableEq F] [Field F] in
theorem npMin_facts (l : List F) (x : F) (h : npMin re im l = some x) : x ∈ l ∧ ∀ y ∈ l, NpLe re im x y := by
  cases l with
  | nil => simp [npMin] at h
  | cons a l =>
    have : ∀ (l : List F) (a : F), let r := l.foldl (fun m y => if npLess re im y m then y else m) a
        (r = a ∨ r ∈ l) ∧ NpLe re im r a ∧ ∀ y ∈ l, NpLe re im r y := by
      intro l
      induction l with
      | nil => intro a; exact ⟨.inl rfl, .inr ⟨rfl, le_refl _⟩, by simp⟩
      | cons b l ih =>
        intro a
        simp only [List.foldl_cons]
        obtain ⟨h1, h2, h3⟩ := ih (if npLess re im b a then b else a)
        by_cases hba : npLess re im b a
        · rw [if_pos hba] at h1 h2 h3 ⊢
          refine ⟨.inr ?_, npLe_trans re im h2 (npLe_of_less re im hba), ?_⟩
          · rcases h1 with h1 | h1
            · rw [h1]; exact List.mem_cons_self
            · exact List.mem_cons_of_mem _ h1
          · intro y hy
            rcases List.mem_cons.1 hy with rfl | hy
            · exact h2
            · exact h3 y hy
        · rw [if_neg hba] at h1 h2 h3 ⊢
          refine ⟨?_, h2, ?_⟩
          · rcases h1 with h1 | h1
            · exact .inl h1
            · exact .inr (List.mem_cons_of_mem _ h1)
          · intro y hy
            rcases List.mem_cons.1 hy with rfl | hy
            · exact npLe_trans re im h2 (npLe_of_not re im hba)
            · exact h3 y hy
    obtain ⟨h1, h2, h3⟩ := this l a
    simp only [npMin, Option.some.injEq] at h
    subst h
    refine ⟨?_, ?_⟩
    · rcases h1 with h1 | h1
      · exact List.mem_cons.2 (.inl h1)
      · exact List.mem_cons_of_mem _ h1
    · intro y hy
      rcases List.mem_cons.1 hy with rfl | hy
      · exact h2
      · exact h3 y hy

omit [DecidableEq F] [Field F] in
theorem check_iff [Zero Q] (small : Q) (l : List F) :
    checkDenominator re im small l = true ↔ ∃ x ∈ l, (∀ y ∈ l, NpLe re im x y) ∧ re x < 0 ∧ im x < small := by
  unfold checkDenominator
  cases h : npMin re im l with
  | none =>
    cases l with
    | nil => simp
    | cons a l => simp [npMin] at h
  | some x =>
    obtain ⟨h1, h2⟩ := npMin_facts re im l x h
    simp only [decide_eq_true_eq]
    constructor
    · exact fun hx => ⟨x, h1, h2, hx⟩
    · rintro ⟨y, hy, hmin, h3, h4⟩
      have e1 : re x = re y := by
        rcases h2 y hy with h | h <;> rcases hmin x h1 with h' | h'
        · exact absurd h (not_lt.2 (le_of_lt h'))
        · exact h'.1.symm
        · exact h.1
        · exact h.1
      have e2 : im x = im y := by
        rcases h2 y hy with h | h <;> rcases hmin x h1 with h' | h'
        · exact absurd h (not_lt.2 (le_of_lt h'))
        · exact absurd h (by rw [e1]; exact lt_irrefl _)
        · exact absurd h' (by rw [e1]; exact lt_irrefl _)
        · exact le_antisymm h.2 h'.2
      rw [e1, e2]
      exact ⟨h3, h4⟩

end
end Lu
end Feyn
