import Verif.Spec.Isolated
import Mathlib.Analysis.Normed.Algebra.MatrixExponential
import Mathlib.LinearAlgebra.Matrix.Trace

/-!
# Sums over fermion states with an imaginary chemical potential
-/

namespace Feyn
open Complex (I exp)

variable {m : ℕ}

/-- A sum over all states of many sites with the factors `1`, `i`, `-1` for zero, one and two particles, of a function that does not distinguish empty from doubly occupied
sites. -/
theorem popov_sum (W : (Fin m → Occ) → ℂ) (hW : ∀ c i, W (Function.update c i (c i).flip) = W c) :
    ∑ c : Fin m → Occ, (∏ i, I ^ (c i).count) * W c = I ^ m * ∑ s : Fin m → Fin 2, W (fun i => Occ.ofSpin (s i)) := by
  induction m with
  | zero =>
    simp only [Finset.univ_eq_empty, Finset.prod_empty, pow_zero, one_mul, Fintype.sum_unique]
    congr 1
    exact Subsingleton.elim _ _
  | succ m ih =>
    rw [← (Fin.consEquiv fun _ => Occ).sum_comp, ← (Fin.consEquiv fun _ => Fin 2).sum_comp, Fintype.sum_prod_type, Fintype.sum_prod_type, Finset.sum_comm,
      Fin.sum_univ_two]
    have key : ∀ c : Fin m → Occ, ∑ n : Occ, (∏ i, I ^ ((Fin.consEquiv fun _ => Occ) (n, c) i).count) * W ((Fin.consEquiv fun _ => Occ) (n, c)) =
        I * ((∏ i, I ^ (c i).count) * W (Fin.cons (Occ.ofSpin 0) c)) + I * ((∏ i, I ^ (c i).count) * W (Fin.cons (Occ.ofSpin 1) c)) := by
      intro c
      have hf : W (Fin.cons (![true, true] : Occ) c) = W (Fin.cons (![false, false] : Occ) c) := by
        have := hW (Fin.cons (![false, false] : Occ) c) 0
        rw [← this, Fin.cons_zero, Fin.update_cons_zero]
        congr 2
        decide
      have hs : ∀ f : Occ → ℂ, ∑ n : Occ, f n = f ![false, false] + f ![false, true] + f ![true, false] + f ![true, true] := by
        intro f
        have h : (Finset.univ : Finset Occ) = {![false, false], ![false, true], ![true, false], ![true, true]} := by decide
        rw [h, Finset.sum_insert (by decide), Finset.sum_insert (by decide), Finset.sum_insert (by decide), Finset.sum_singleton]
        ring
      have c0 : Occ.count ![false, false] = 0 := by decide
      have c1 : Occ.count ![false, true] = 1 := by decide
      have c2 : Occ.count ![true, false] = 1 := by decide
      have c3 : Occ.count ![true, true] = 2 := by decide
      have o0 : Occ.ofSpin 0 = ![true, false] := by decide
      have o1 : Occ.ofSpin 1 = ![false, true] := by decide
      rw [hs]
      simp only [Fin.consEquiv, Equiv.coe_fn_mk, Fin.prod_univ_succ, Fin.cons_zero, Fin.cons_succ, c0, c1, c2, c3, hf, o0, o1, Complex.I_sq]
      ring
    rw [Finset.sum_congr rfl fun c _ => key c, Finset.sum_add_distrib, ← Finset.mul_sum, ← Finset.mul_sum,
      ih (fun c => W (Fin.cons (Occ.ofSpin 0) c)), ih (fun c => W (Fin.cons (Occ.ofSpin 1) c))]
    · have e : ∀ (a : Fin 2) (s : Fin m → Fin 2), (fun i => Occ.ofSpin ((Fin.consEquiv fun _ => Fin 2) (a, s) i)) = Fin.cons (Occ.ofSpin a) fun i => Occ.ofSpin (s i) := by
        intro a s
        funext i
        refine Fin.cases ?_ (fun i => ?_) i <;> simp [Fin.consEquiv]
      simp only [e]
      ring
    · intro c i
      have := hW (Fin.cons (Occ.ofSpin 1) c) i.succ
      rwa [Fin.cons_succ, ← Fin.cons_update] at this
    · intro c i
      have := hW (Fin.cons (Occ.ofSpin 0) c) i.succ
      rwa [Fin.cons_succ, ← Fin.cons_update] at this

/-- The states with one particle per site among all states. -/
noncomputable def embed (m : ℕ) : Matrix (Fin m → Fin 2) (Fin m → Occ) ℂ := fun s c => if c = fun i => Occ.ofSpin (s i) then 1 else 0

theorem ofSpin_inj : Function.Injective Occ.ofSpin := by decide

/-- The change of a state that exchanges empty and doubly occupied on site `i`. -/
def flipAt (i : Fin m) (c : Fin m → Occ) : Fin m → Occ := Function.update c i (c i).flip

theorem flip_flip (n : Occ) : n.flip.flip = n := by
  revert n
  decide

theorem flip_single (n : Occ) : n.flip.single = n.single := by
  revert n
  decide

theorem flip_of_single {n : Occ} (h : n.single) : n.flip = n := by
  revert n
  decide

theorem flipAt_flipAt (i : Fin m) (c : Fin m → Occ) : flipAt i (flipAt i c) = c := by
  simp [flipAt, flip_flip]

/-- A matrix that does not distinguish empty and doubly occupied sites and whose rows of spin states are those of a matrix on spin states. -/
structure SpinLike (M : Matrix (Fin m → Occ) (Fin m → Occ) ℂ) (M' : Matrix (Fin m → Fin 2) (Fin m → Fin 2) ℂ) : Prop where
  flip : ∀ i c c', M (flipAt i c) (flipAt i c') = M c c'
  emb : embed m * M = M' * embed m

theorem embed_mul (M : Matrix (Fin m → Occ) (Fin m → Occ) ℂ) (s : Fin m → Fin 2) (c : Fin m → Occ) : (embed m * M) s c = M (fun i => Occ.ofSpin (s i)) c := by
  simp [Matrix.mul_apply, embed]

theorem mul_embed (M' : Matrix (Fin m → Fin 2) (Fin m → Fin 2) ℂ) (s : Fin m → Fin 2) (c : Fin m → Occ) :
    (M' * embed m) s c = ∑ s', if c = (fun i => Occ.ofSpin (s' i)) then M' s s' else 0 := by
  simp [Matrix.mul_apply, embed]

theorem mul_embed_of (M' : Matrix (Fin m → Fin 2) (Fin m → Fin 2) ℂ) (s s' : Fin m → Fin 2) : (M' * embed m) s (fun i => Occ.ofSpin (s' i)) = M' s s' := by
  rw [mul_embed, Finset.sum_eq_single s', if_pos rfl]
  · intro t _ ht
    rw [if_neg]
    intro h
    exact ht (funext fun i => ofSpin_inj (congrFun h i).symm)
  · simp

theorem ofSpin_spin {n : Occ} (h : n.single) : Occ.ofSpin n.spin = n := by
  revert n
  decide

theorem single_ofSpin (s : Fin 2) : (Occ.ofSpin s).single = true := by
  revert s
  decide

theorem spin_ofSpin (s : Fin 2) : (Occ.ofSpin s).spin = s := by
  revert s
  decide

theorem SpinLike.spin (a : Fin 3 × Fin m) : SpinLike (siteSpin a) (pureSpin a) := by
  obtain ⟨k, i⟩ := a
  refine ⟨fun j c c' => ?_, ?_⟩
  · unfold siteSpin
    have inj : Function.Injective Occ.flip := fun x y h => by rw [← flip_flip x, ← flip_flip y, h]
    have h1 : (∀ l, l ≠ i → flipAt j c l = flipAt j c' l) ↔ ∀ l, l ≠ i → c l = c' l := by
      refine forall_congr' fun l => forall_congr' fun _ => ?_
      by_cases hl : l = j
      · subst hl
        simp [flipAt, inj.eq_iff]
      · simp [flipAt, hl]
    have h2 : ∀ c : Fin m → Occ, (flipAt j c i).single = (c i).single := by
      intro c
      by_cases hl : i = j
      · subst hl
        simp [flipAt, flip_single]
      · simp [flipAt, hl]
    have h3 : ∀ c : Fin m → Occ, (c i).single → flipAt j c i = c i := by
      intro c hc
      by_cases hl : i = j
      · subst hl
        simp [flipAt, flip_of_single hc]
      · simp [flipAt, hl]
    simp only [h1, h2]
    split_ifs with h
    · rw [h3 c h.2.1, h3 c' h.2.2]
    · rfl
  · ext s c
    rw [embed_mul, mul_embed]
    by_cases hc : ∀ l, (c l).single
    · have ec : ∃ t : Fin m → Fin 2, c = fun l => Occ.ofSpin (t l) := ⟨_, funext fun l => (ofSpin_spin (hc l)).symm⟩
      obtain ⟨t, rfl⟩ := ec
      rw [← mul_embed, mul_embed_of]
      simp only [siteSpin, pureSpin, single_ofSpin, spin_ofSpin, and_self, and_true, ofSpin_inj.eq_iff]
    · rw [Finset.sum_eq_zero, siteSpin, if_neg]
      · rintro ⟨h1, _, h2⟩
        refine hc fun l => ?_
        by_cases hl : l = i
        · rw [hl]
          exact h2
        · rw [← h1 l hl]
          exact single_ofSpin _
      · intro t _
        rw [if_neg]
        rintro rfl
        exact hc fun l => single_ofSpin _

theorem SpinLike.algebraMap (x : ℂ) : SpinLike (algebraMap ℂ (Matrix (Fin m → Occ) (Fin m → Occ) ℂ) x) (algebraMap ℂ _ x) := by
  refine ⟨fun i c c' => ?_, ?_⟩
  · have inj : Function.Injective (flipAt i) := fun x y h => by rw [← flipAt_flipAt i x, ← flipAt_flipAt i y, h]
    simp [Matrix.algebraMap_matrix_apply, inj.eq_iff]
  · rw [Algebra.algebraMap_eq_smul_one, Algebra.algebraMap_eq_smul_one]
    simp

theorem SpinLike.add {M N : Matrix (Fin m → Occ) (Fin m → Occ) ℂ} {M' N' : Matrix (Fin m → Fin 2) (Fin m → Fin 2) ℂ} (h : SpinLike M M') (g : SpinLike N N') :
    SpinLike (M + N) (M' + N') :=
  ⟨fun i c c' => by rw [Matrix.add_apply, Matrix.add_apply, h.flip, g.flip], by rw [Matrix.mul_add, Matrix.add_mul, h.emb, g.emb]⟩

theorem SpinLike.mul {M N : Matrix (Fin m → Occ) (Fin m → Occ) ℂ} {M' N' : Matrix (Fin m → Fin 2) (Fin m → Fin 2) ℂ} (h : SpinLike M M') (g : SpinLike N N') :
    SpinLike (M * N) (M' * N') := by
  refine ⟨fun i c c' => ?_, by rw [← Matrix.mul_assoc, h.emb, Matrix.mul_assoc, g.emb, Matrix.mul_assoc]⟩
  rw [Matrix.mul_apply, Matrix.mul_apply, ← Equiv.sum_comp (Equiv.mk (flipAt i) (flipAt i) (flipAt_flipAt i) (flipAt_flipAt i))]
  exact Finset.sum_congr rfl fun x _ => by rw [Equiv.coe_fn_mk, h.flip, g.flip]

theorem SpinLike.poly (H : SpinPoly m) : SpinLike H.fock H.pure := by
  unfold SpinPoly.fock SpinPoly.pure
  induction H using FreeAlgebra.induction with
  | grade0 x => rw [AlgHom.commutes, AlgHom.commutes]; exact SpinLike.algebraMap x
  | grade1 a => rw [FreeAlgebra.lift_ι_apply, FreeAlgebra.lift_ι_apply]; exact SpinLike.spin a
  | mul a b ha hb => rw [map_mul, map_mul]; exact ha.mul hb
  | add a b ha hb => rw [map_add, map_add]; exact ha.add hb

section
open scoped Matrix.Norms.Operator

theorem SpinLike.exp {M : Matrix (Fin m → Occ) (Fin m → Occ) ℂ} {M' : Matrix (Fin m → Fin 2) (Fin m → Fin 2) ℂ} (h : SpinLike M M') :
    SpinLike (NormedSpace.exp M) (NormedSpace.exp M') := by
  refine ⟨fun i c c' => ?_, ?_⟩
  · let P : Matrix (Fin m → Occ) (Fin m → Occ) ℂ := fun c c' => if c' = flipAt i c then 1 else 0
    have l : ∀ (X : Matrix (Fin m → Occ) (Fin m → Occ) ℂ) c c', (P * X) c c' = X (flipAt i c) c' := by
      intro X c c'
      rw [Matrix.mul_apply]
      simp [P]
    have r : ∀ (X : Matrix (Fin m → Occ) (Fin m → Occ) ℂ) c c', (X * P) c c' = X c (flipAt i c') := by
      intro X c c'
      have e : ∀ x, (c' = flipAt i x) ↔ x = flipAt i c' := fun x => ⟨fun h => by rw [h, flipAt_flipAt], fun h => by rw [h, flipAt_flipAt]⟩
      rw [Matrix.mul_apply]
      simp [P, e]
    have hc : Commute P M := by
      ext c c'
      rw [l, r, ← h.flip i, flipAt_flipAt]
    have := congrFun (congrFun (Commute.exp_right hc).eq c) (flipAt i c')
    rwa [l, r, flipAt_flipAt] at this
  · have p : ∀ n : ℕ, embed m * M ^ n = M' ^ n * embed m := by
      intro n
      induction n with
      | zero => simp
      | succ n ih => rw [pow_succ, ← Matrix.mul_assoc, ih, Matrix.mul_assoc, h.emb, ← Matrix.mul_assoc, ← pow_succ]
    have h1 := (NormedSpace.exp_series_hasSum_exp' (𝕂 := ℂ) M).map (AddMonoidHom.mk' (fun X => embed m * X) fun a b => Matrix.mul_add _ a b)
      (by exact continuous_const.matrix_mul continuous_id)
    have h2 := (NormedSpace.exp_series_hasSum_exp' (𝕂 := ℂ) M').map (AddMonoidHom.mk' (fun X : Matrix (Fin m → Fin 2) (Fin m → Fin 2) ℂ => X * embed m) fun a b => Matrix.add_mul a b _)
      (by exact continuous_id.matrix_mul continuous_const)
    refine h1.unique ?_
    convert h2 using 1
    · funext n
      simp [p]
    · rfl

end

/-- The weighted trace over the fermion states is the trace over the spin states. -/
theorem SpinLike.trace {M : Matrix (Fin m → Occ) (Fin m → Occ) ℂ} {M' : Matrix (Fin m → Fin 2) (Fin m → Fin 2) ℂ} (h : SpinLike M M') :
    ∑ c : Fin m → Occ, (∏ i, I ^ (c i).count) * M c c = I ^ m * M'.trace := by
  rw [popov_sum (fun c => M c c) (fun c i => h.flip i c c), Matrix.trace]
  congr 1
  refine Finset.sum_congr rfl fun s _ => ?_
  rw [Matrix.diag_apply, ← embed_mul M, h.emb, mul_embed_of]

end Feyn
