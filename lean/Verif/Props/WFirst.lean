import Verif.Spec.WFirst
import Mathlib.Tactic.IntervalCases
import Mathlib.Tactic.Ring
import Mathlib.Algebra.Field.Rat

/-! # First order of the screened interaction (C104) -/

namespace Feyn
variable {F : Type} [Field F]

/-- **C104.** The list of four spins has every combination that conserves the spin, once, and no other one. -/
theorem C104_list (a b c d : ℕ) (ha : a < 2) (hb : b < 2) (hc : c < 2) (hd : d < 2) :
    pyConserved4.count ((a, b), (c, d)) = if SpinKept (2 * a + b) (2 * c + d) then 1 else 0 := by
  interval_cases a <;> interval_cases b <;> interval_cases c <;> interval_cases d <;> decide

private theorem spinList_eq : pyWSpinList.map (fun x => (pySpinsIndex x.1.1, pySpinsIndex x.1.2, pySpinsIndex x.2.1, pySpinsIndex x.2.2)) =
    [(0, 0, 0, 0), (0, 0, 3, 3), (0, 0, 0, 3), (0, 0, 3, 0), (3, 3, 0, 0), (3, 3, 3, 3), (3, 3, 0, 3), (3, 3, 3, 0), (0, 3, 0, 0), (0, 3, 3, 3), (0, 3, 0, 3), (0, 3, 3, 0),
     (3, 0, 0, 0), (3, 0, 3, 3), (3, 0, 0, 3), (3, 0, 3, 0), (1, 2, 2, 1), (2, 1, 1, 2)] := by decide

private def term (nsub : ℕ) (W0 Polar : PyBlock F) (s i j a b : ℕ) : F :=
  ∑ c ∈ Finset.range nsub, ∑ d ∈ Finset.range nsub, W0 s a i c * Polar i c j d * W0 j d s b

private theorem foldl_eq (nsub : ℕ) (W0 Polar : PyBlock F) (s a s' b : ℕ) : ∀ (l : List ((PySpins × PySpins) × (PySpins × PySpins))) (W : PyBlock F),
    l.foldl (pyWStep nsub W0 Polar) W s a s' b = (l.map (fun x => (pySpinsIndex x.1.1, pySpinsIndex x.1.2, pySpinsIndex x.2.1, pySpinsIndex x.2.2))).foldl
      (fun y x => if s = x.1 ∧ s' = x.2.1 then y + term nsub W0 Polar x.1 x.2.2.1 x.2.2.2 a b else y) (W s a s' b)
  | [], W => rfl
  | x :: l, W => by
    rw [List.foldl_cons, foldl_eq nsub W0 Polar s a s' b l, List.map_cons, List.foldl_cons]
    rfl

private theorem first_eq (nsub : ℕ) (W0 Polar : PyBlock F) (s a s' b : ℕ) :
    pyWFirst nsub W0 Polar s a s' b =
      if (s = 0 ∨ s = 3) ∧ (s' = 0 ∨ s' = 3) then term nsub W0 Polar s 0 0 a b + term nsub W0 Polar s 3 3 a b + term nsub W0 Polar s 0 3 a b + term nsub W0 Polar s 3 0 a b
      else if s = 1 ∧ s' = 2 then term nsub W0 Polar 1 2 1 a b
      else if s = 2 ∧ s' = 1 then term nsub W0 Polar 2 1 2 a b else 0 := by
  rw [pyWFirst, foldl_eq, spinList_eq]
  simp only [List.foldl_cons, List.foldl_nil]
  by_cases h0 : s = 0
  · subst h0
    by_cases k0 : s' = 0
    · subst k0; simp
    by_cases k3 : s' = 3
    · subst k3; simp
    simp [k0, k3]
  by_cases h3 : s = 3
  · subst h3
    by_cases k0 : s' = 0
    · subst k0; simp
    by_cases k3 : s' = 3
    · subst k3; simp
    simp [k0, k3]
  by_cases h1 : s = 1
  · subst h1
    by_cases k : s' = 2 <;> simp [k]
  by_cases h2 : s = 2
  · subst h2
    by_cases k : s' = 1 <;> simp [k]
  simp [h0, h1, h2, h3]

private theorem kept_iff {s s' : ℕ} (h : s < 4) (h' : s' < 4) : SpinKept s s' ↔ ((s = 0 ∨ s = 3) ∧ (s' = 0 ∨ s' = 3)) ∨ (s = 1 ∧ s' = 2) ∨ (s = 2 ∧ s' = 1) := by
  interval_cases s <;> interval_cases s' <;> decide

/-- **C104.** The first order conserves the spin. -/
theorem C104_kept (nsub : ℕ) (W0 Polar : PyBlock F) {s s' : ℕ} (h : s < 4) (h' : s' < 4) (hk : ¬ SpinKept s s') (a b : ℕ) : pyWFirst nsub W0 Polar s a s' b = 0 := by
  rw [kept_iff h h', not_or, not_or] at hk
  rw [first_eq, if_neg hk.1, if_neg hk.2.1, if_neg hk.2.2]

private theorem term_zero {nsub : ℕ} {W0 Polar : PyBlock F} (hW : KeepsSpin W0) (hP : KeepsSpin Polar) {s i j : ℕ} (Z : PyBlock F) (s' a b : ℕ) (h : ¬ (SpinKept s i ∧ SpinKept i j)) :
    ∑ c ∈ Finset.range nsub, ∑ d ∈ Finset.range nsub, W0 s a i c * Polar i c j d * Z j d s' b = 0 := by
  refine Finset.sum_eq_zero fun c _ => Finset.sum_eq_zero fun d _ => ?_
  by_cases h1 : SpinKept s i
  · rw [hP i c j d fun h2 => h ⟨h1, h2⟩]; ring
  · rw [hW s a i c h1]; ring

/-- What the program computes: the product with the last factor at the spins of the first end. -/
private theorem first_product {nsub : ℕ} {W0 Polar : PyBlock F} (hW : KeepsSpin W0) (hP : KeepsSpin Polar) {s s' : ℕ} (hs : s = 0 ∨ s = 3) (hs' : s' = 0 ∨ s' = 3) (a b : ℕ) :
    pyWFirst nsub W0 Polar s a s' b = blockProduct nsub W0 Polar W0 s a s b := by
  have z := fun i j (h : ¬ (SpinKept s i ∧ SpinKept i j)) => term_zero (nsub := nsub) hW hP W0 s a b h
  rw [first_eq, if_pos ⟨hs, hs'⟩, blockProduct]
  simp only [Finset.sum_range_succ _ 3, Finset.sum_range_succ _ 2, Finset.sum_range_succ _ 1, Finset.sum_range_one]
  unfold term
  have e1 : ∀ j, ∑ c ∈ Finset.range nsub, ∑ d ∈ Finset.range nsub, W0 s a 1 c * Polar 1 c j d * W0 j d s b = 0 := fun j => z 1 j (by rcases hs with rfl | rfl <;> simp [SpinKept])
  have e2 : ∀ j, ∑ c ∈ Finset.range nsub, ∑ d ∈ Finset.range nsub, W0 s a 2 c * Polar 2 c j d * W0 j d s b = 0 := fun j => z 2 j (by rcases hs with rfl | rfl <;> simp [SpinKept])
  rw [e1, e1, e1, e1, e2, e2, e2, e2, z 0 1 (by simp [SpinKept]), z 0 2 (by simp [SpinKept]), z 3 1 (by simp [SpinKept]), z 3 2 (by simp [SpinKept])]
  ring

/-- **C104**, the part that holds: for arrays that conserve the spin, the elements between equal spins that do not flip are those of the product of the interaction, the polarisation and the
interaction. Missing: the elements between different spins (`C104_refuted_sign`, `C104_refuted_flip`). -/
theorem C104_diagonal_partial {nsub : ℕ} {W0 Polar : PyBlock F} (hW : KeepsSpin W0) (hP : KeepsSpin Polar) {s : ℕ} (hs : s = 0 ∨ s = 3) (a b : ℕ) :
    pyWFirst nsub W0 Polar s a s b = blockProduct nsub W0 Polar W0 s a s b := first_product hW hP hs hs a b

/-- **C104** fails between different spins: the element between `DOWN` and `UP` is the one between `DOWN` and `DOWN`, whatever the arrays are. -/
theorem C104_refuted_sign (nsub : ℕ) (W0 Polar : PyBlock F) {s s' : ℕ} (hs : s = 0 ∨ s = 3) (hs' : s' = 0 ∨ s' = 3) (a b : ℕ) :
    pyWFirst nsub W0 Polar s a s' b = pyWFirst nsub W0 Polar s a s b := by
  rw [first_eq, first_eq, if_pos ⟨hs, hs'⟩, if_pos ⟨hs, hs⟩]

/-- **C104** fails for spin flips: their elements are zero for every interaction that conserves the spin. -/
theorem C104_refuted_flip {nsub : ℕ} {W0 Polar : PyBlock F} (hW : KeepsSpin W0) {s s' : ℕ} (h : (s = 1 ∧ s' = 2) ∨ (s = 2 ∧ s' = 1)) (a b : ℕ) : pyWFirst nsub W0 Polar s a s' b = 0 := by
  rw [first_eq]
  rcases h with ⟨rfl, rfl⟩ | ⟨rfl, rfl⟩
  · rw [if_neg (by simp), if_pos (by simp)]
    refine Finset.sum_eq_zero fun c _ => Finset.sum_eq_zero fun d _ => ?_
    rw [hW 1 d 1 b (by decide), mul_zero]
  · rw [if_neg (by simp), if_neg (by simp), if_pos (by simp)]
    refine Finset.sum_eq_zero fun c _ => Finset.sum_eq_zero fun d _ => ?_
    rw [hW 2 d 2 b (by decide), mul_zero]

/-- The interaction of Heisenberg spins with coupling one, without sublattices. -/
private def heisenberg : PyBlock ℚ := fun s _ s' _ =>
  if (s = 0 ∧ s' = 0) ∨ (s = 3 ∧ s' = 3) then 1 else if (s = 0 ∧ s' = 3) ∨ (s = 3 ∧ s' = 0) then -1 else if (s = 1 ∧ s' = 2) ∨ (s = 2 ∧ s' = 1) then 2 else 0

/-- A polarisation of spins that are independent. -/
private def freePolar : PyBlock ℚ := fun s _ s' _ => if (s = 0 ∧ s' = 0) ∨ (s = 3 ∧ s' = 3) ∨ (s = 1 ∧ s' = 2) ∨ (s = 2 ∧ s' = 1) then 1 else 0

/-- **C104** fails: Heisenberg spins. The first order is 2 between equal spins, as it should be, but it is 2 instead of -2 between `DOWN` and `UP` and 0 instead of 4 for a spin flip. -/
theorem C104_refuted : ∃ W0 Polar : PyBlock ℚ, KeepsSpin W0 ∧ KeepsSpin Polar ∧
    (pyWFirst 1 W0 Polar 0 0 0 0 = 2 ∧ blockProduct 1 W0 Polar W0 0 0 0 0 = 2) ∧ (pyWFirst 1 W0 Polar 0 0 3 0 = 2 ∧ blockProduct 1 W0 Polar W0 0 0 3 0 = -2) ∧
    pyWFirst 1 W0 Polar 1 0 2 0 = 0 ∧ blockProduct 1 W0 Polar W0 1 0 2 0 = 4 := by
  refine ⟨heisenberg, freePolar, ?_, ?_, by decide +kernel, by decide +kernel, by decide +kernel, by decide +kernel⟩
  · intro s a s' b h
    unfold heisenberg
    rw [if_neg, if_neg, if_neg] <;> rintro (⟨rfl, rfl⟩ | ⟨rfl, rfl⟩) <;> exact h (by decide)
  · intro s a s' b h
    unfold freePolar
    rw [if_neg]
    rintro (⟨rfl, rfl⟩ | ⟨rfl, rfl⟩ | ⟨rfl, rfl⟩ | ⟨rfl, rfl⟩) <;> exact h (by decide)

end Feyn
