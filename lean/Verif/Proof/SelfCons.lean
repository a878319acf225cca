import Verif.Spec.SelfCons
import Verif.Proof.Dyson
import Verif.Proof.Merge

/-!
# Symmetries of the solutions of the Dyson equations
-/

namespace Feyn

set_option linter.unusedSectionVars false

section
variable {F : Type} [Field F] [StarRing F] {d : ℕ} {L : Fin d → ℕ} {N m : ℕ} [∀ i, NeZero (L i)] [NeZero N]

theorem cont_entry {S : Type} (σ : ℕ) (g : Grid L N (Matrix S S F)) (r : ∀ i, Fin (L i)) (z : ℤ) (p q : S) : cont σ g r z p q = cont σ (fun r t => g r t p q) r z := by
  unfold cont
  split_ifs <;> rfl

/-- Times counted backwards. -/
theorem ofNat_back (z : ℤ) : (Fin.ofNat N ((-1 - z) % N).toNat) = Fin.rev (Fin.ofNat N (z % N).toNat) ∧ (-1 - z) / N = -1 - z / N := by
  have hN : (0 : ℤ) < N := by exact_mod_cast Nat.pos_of_ne_zero (NeZero.ne N)
  have h0 := Int.emod_nonneg z hN.ne'
  have h1 := Int.emod_lt_of_pos z hN
  have h2 := Int.emod_add_mul_ediv z N
  obtain ⟨e1, e2⟩ := (Int.ediv_emod_unique hN (a := -1 - z) (q := -1 - z / N) (r := N - 1 - z % N)).2 ⟨by linarith, by omega, by omega⟩
  refine ⟨?_, e1⟩
  rw [e2]
  apply Fin.ext
  rw [Fin.val_rev]
  simp only [Fin.ofNat]
  rw [Nat.mod_eq_of_lt (by omega), Nat.mod_eq_of_lt (by omega)]
  omega

theorem cont_rev0 (x : Grid L N F) (r : ∀ i, Fin (L i)) (z : ℤ) : cont 0 (fun r t => x r (Fin.rev t)) r z = cont 0 x r (-1 - z) := by
  unfold cont
  simp only [zero_ne_one, false_and, if_false]
  rw [(ofNat_back z).1]

theorem cont_rev1 (x : Grid L N F) (r : ∀ i, Fin (L i)) (z : ℤ) : cont 1 (fun r t => x r (Fin.rev t)) r z = -cont 1 x r (-1 - z) := by
  unfold cont
  obtain ⟨e1, e2⟩ := ofNat_back (N := N) z
  simp only [true_and]
  rw [e1, e2]
  by_cases c : z / (N : ℤ) % 2 = 1
  · rw [if_pos c, if_neg (by omega)]
  · rw [if_neg c, if_pos (by omega), neg_neg]

theorem cont_shift (x : Grid L N F) (r : ∀ i, Fin (L i)) (z : ℤ) : cont 0 x r (z + N) = cont 0 x r z ∧ cont 1 x r (z + N) = -cont 1 x r z := by
  have hN : (N : ℤ) ≠ 0 := by exact_mod_cast NeZero.ne N
  have e1 : (z + N) % (N : ℤ) = z % N := by simp
  have e2 : (z + N) / (N : ℤ) = z / N + 1 := by rw [Int.add_ediv_of_dvd_right (dvd_refl _), Int.ediv_self hN]
  unfold cont
  constructor
  · simp [e1]
  · simp only [true_and]
    rw [e1, e2]
    by_cases c : z / (N : ℤ) % 2 = 1
    · rw [if_pos c, if_neg (by omega), neg_neg]
    · rw [if_neg c, if_pos (by omega)]

theorem cont_map (σ : ℕ) (x : Grid L N F) (φ : F →+ F) (r : ∀ i, Fin (L i)) (z : ℤ) : cont σ (fun r t => φ (x r t)) r z = φ (cont σ x r z) := by
  unfold cont
  split_ifs
  · rw [map_neg]
  · rfl

/-- Sums over two local functions in front. -/
theorem conv3_local (A B C : Grid L N (Matrix (GIdx m) (GIdx m) F)) (hA : ∀ r t p q, r ≠ 0 ∨ p ≠ q → A r t p q = 0) (hB : ∀ r t p q, r ≠ 0 ∨ p ≠ q → B r t p q = 0)
    (r : ∀ i, Fin (L i)) (n : Fin N) (p q : GIdx m) :
    conv3 1 A B C r n p q = ∑ j : Fin N, ∑ k : Fin N, A 0 j p p * B 0 k p p * cont 1 (fun r t => C r t p q) r ((n : ℕ) - (j : ℕ) - (k : ℕ) - 1) := by
  unfold conv3
  simp only [Matrix.sum_apply]
  rw [Finset.sum_eq_single 0 (fun r1 _ h => Finset.sum_eq_zero fun r2 _ => Finset.sum_eq_zero fun j _ => Finset.sum_eq_zero fun k _ => ?_) (fun h => absurd (Finset.mem_univ _) h)]
  · rw [Finset.sum_eq_single 0 (fun r2 _ h => Finset.sum_eq_zero fun j _ => Finset.sum_eq_zero fun k _ => ?_) (fun h => absurd (Finset.mem_univ _) h)]
    · refine Finset.sum_congr rfl fun j _ => Finset.sum_congr rfl fun k _ => ?_
      rw [Matrix.mul_apply, Finset.sum_eq_single p (fun x _ h => ?_) (fun h => absurd (Finset.mem_univ _) h)]
      · rw [Matrix.mul_apply, Finset.sum_eq_single p (fun x _ h => ?_) (fun h => absurd (Finset.mem_univ _) h), sub_zero, sub_zero, cont_entry]
        rw [hA 0 j p x (Or.inr (Ne.symm h)), zero_mul]
      · rw [Matrix.mul_apply, Finset.sum_eq_zero fun y _ => ?_, zero_mul]
        by_cases e : p = y
        · rw [hB 0 k y x (Or.inr (e ▸ Ne.symm h)), mul_zero]
        · rw [hA 0 j p y (Or.inr e), zero_mul]
    · have : B r2 k = 0 := by
        ext a b
        exact hB r2 k a b (Or.inl h)
      simp [this]
  · have : A r1 j = 0 := by
      ext a b
      exact hA r1 j a b (Or.inl h)
    simp [this]

variable [CharZero F]

/-- The Dyson equation for functions that are local, element by element. -/
theorem dysonG_entry {dt : F} {g0 s g : Grid L N (Matrix (GIdx m) (GIdx m) F)} (h0 : SymG g0) (h1 : SymG s) :
    DysonG dt g0 (fun _ _ => 0) s g ↔ ∀ r (n : Fin N) p q, g r n p q = g0 r n p q +
      dt * dt * ∑ j : Fin N, ∑ k : Fin N, g0 0 j p p * s 0 k p p * cont 1 (fun r t => g r t p q) r ((n : ℕ) - (j : ℕ) - (k : ℕ) - 1) := by
  have hc : ∀ r n, conv2 1 g0 (fun _ _ => (0 : Matrix (GIdx m) (GIdx m) F)) g r n = 0 := by
    intro r n
    unfold conv2
    simp
  unfold DysonG
  refine forall_congr' fun r => forall_congr' fun n => ?_
  rw [hc, smul_zero, add_zero, ← Matrix.ext_iff]
  refine forall_congr' fun p => forall_congr' fun q => ?_
  rw [Matrix.add_apply, Matrix.smul_apply, conv3_local g0 s g h0.loc h1.loc, smul_eq_mul]

/-- The solution of the Dyson equation has the symmetries of the bare propagator and the self energy. -/
theorem symG_dyson {dt : F} (hdt : star dt = dt) {g0 s g : Grid L N (Matrix (GIdx m) (GIdx m) F)} (h0 : SymG g0) (h1 : SymG s) (h : DysonG dt g0 (fun _ _ => 0) s g)
    (hu : ∀ g', DysonG dt g0 (fun _ _ => 0) s g' → g' = g) : SymG g := by
  have h' := (dysonG_entry h0 h1).1 h
  have loc : ∀ r t p q, r ≠ 0 ∨ p ≠ q → g r t p q = 0 := by
    have e := hu (fun r t => Matrix.of fun p q => if r = 0 ∧ p = q then g r t p q else 0) ((dysonG_entry h0 h1).2 ?_)
    · intro r t p q c
      have := congrFun (congrFun (congrFun (congrFun e r) t) p) q
      simp only [Matrix.of_apply] at this
      rw [← this, if_neg (by tauto)]
    · intro r n p q
      simp only [Matrix.of_apply]
      by_cases c : r = 0 ∧ p = q
      · obtain ⟨rfl, rfl⟩ := c
        rw [if_pos ⟨rfl, rfl⟩, h']
        congr 3
        funext j
        refine Finset.sum_congr rfl fun k _ => ?_
        congr 1
        unfold cont
        simp
      · rw [if_neg c, h0.loc r n p q (by tauto)]
        symm
        rw [zero_add]
        apply mul_eq_zero_of_right
        refine Finset.sum_eq_zero fun j _ => Finset.sum_eq_zero fun k _ => ?_
        apply mul_eq_zero_of_right
        unfold cont
        simp [c]
  have flip : ∀ r t p q, g r t (!p.1, p.2) (!q.1, q.2) = g r t p q := by
    have e := hu (fun r t => Matrix.of fun p q => g r t (!p.1, p.2) (!q.1, q.2)) ((dysonG_entry h0 h1).2 ?_)
    · intro r t p q
      exact congrFun (congrFun (congrFun (congrFun e r) t) p) q
    · intro r n p q
      simp only [Matrix.of_apply]
      rw [h']
      have k0 : g0 r n (!p.1, p.2) (!q.1, q.2) = g0 r n p q := by
        by_cases c : p = q
        · subst c
          exact h0.spin r n _ _ _
        · rw [h0.loc r n p q (Or.inr c), h0.loc _ _ _ _ (Or.inr _)]
          intro e
          apply c
          obtain ⟨a, b⟩ := p
          obtain ⟨a', b'⟩ := q
          simp only [Prod.mk.injEq, Bool.not_inj_iff] at e
          rw [e.1, e.2]
      rw [k0]
      have e1 : ∀ j, g0 0 j (!p.1, p.2) (!p.1, p.2) = g0 0 j p p := fun j => h0.spin 0 j _ _ _
      have e2 : ∀ j, s 0 j (!p.1, p.2) (!p.1, p.2) = s 0 j p p := fun j => h1.spin 0 j _ _ _
      simp only [e1, e2]
  have hole : ∀ r t p q, g r (Fin.rev t) p q = star (g r t p q) := by
    have e := hu (fun r t => Matrix.of fun p q => star (g r (Fin.rev t) p q)) ((dysonG_entry h0 h1).2 ?_)
    · intro r t p q
      have := congrFun (congrFun (congrFun (congrFun e r) t) p) q
      simp only [Matrix.of_apply] at this
      rw [← this, star_star]
    · intro r n p q
      simp only [Matrix.of_apply]
      rw [h', star_add, h0.hole, star_star, star_mul', star_mul', hdt]
      congr 2
      rw [star_sum]
      rw [← Equiv.sum_comp Fin.revPerm]
      refine Finset.sum_congr rfl fun j _ => ?_
      rw [star_sum, ← Equiv.sum_comp Fin.revPerm]
      refine Finset.sum_congr rfl fun k _ => ?_
      simp only [Fin.revPerm_apply]
      rw [star_mul', star_mul', h0.hole, h1.hole, star_star, star_star]
      congr 1
      have e1 := cont_map 1 (fun r t => g r (Fin.rev t) p q) (starAddEquiv (R := F)).toAddMonoidHom r ((n : ℕ) - (j : ℕ) - (k : ℕ) - 1)
      simp only [AddEquiv.toAddMonoidHom_eq_coe, AddMonoidHom.coe_coe, starAddEquiv_apply] at e1
      rw [e1, cont_rev1 (fun r t => g r t p q)]
      congr 1
      have a1 := j.2
      have a2 := k.2
      have a3 := n.2
      rw [show -1 - (((n : ℕ) : ℤ) - (j : ℕ) - (k : ℕ) - 1) = (((Fin.rev n : Fin N) : ℕ) - ((Fin.rev j : Fin N) : ℕ) - ((Fin.rev k : Fin N) : ℕ) - 1) + (N : ℤ) by
        simp only [Fin.val_rev]
        omega, (cont_shift _ _ _).2, neg_neg]
  refine ⟨loc, ?_, hole⟩
  intro r t a b c
  by_cases e : a = b
  · rw [e]
  · have : b = !a := by revert e; cases a <;> cases b <;> simp
    rw [this]
    exact (flip r t (a, c) (a, c)).symm

/-! Interactions. -/

theorem exchange_one (p q : Bool × Bool) (x : F) : exchange p q x = exchange p q 1 * x := by
  unfold exchange
  split_ifs <;> ring

theorem exchange_contract (p q : Bool × Bool) (x y : F) : ∑ e : Bool × Bool, exchange p e x * exchange (e.2, e.1) q y = 2 * exchange p q (x * y) := by
  obtain ⟨a, b⟩ := p
  obtain ⟨c, e⟩ := q
  rw [Fintype.sum_prod_type]
  simp only [Fintype.sum_bool]
  cases a <;> cases b <;> cases c <;> cases e <;> simp [exchange] <;> ring

/-- A product with a polarisation in the middle. -/
theorem mul_polar {P : Grid L N (Matrix (WIdx m) (WIdx m) F)} (hP : SymP P) (A X : Matrix (WIdx m) (WIdx m) F) (r : ∀ i, Fin (L i)) (t : Fin N) (p q : WIdx m) :
    (A * P r t * X) p q = if r = 0 then ∑ z : Fin m, P 0 t ((true, true), z) ((true, true), z) * ∑ e : Bool × Bool, A p (e, z) * X ((e.2, e.1), z) q else 0 := by
  by_cases c : r = 0
  · subst c
    rw [if_pos rfl, Matrix.mul_apply]
    have h1 : ∀ x : WIdx m, (A * P 0 t) p x = A p ((x.1.2, x.1.1), x.2) * P 0 t ((true, true), x.2) ((true, true), x.2) := by
      intro x
      rw [Matrix.mul_apply, Finset.sum_eq_single ((x.1.2, x.1.1), x.2) (fun y _ h => ?_) (fun h => absurd (Finset.mem_univ _) h)]
      · rw [← hP.spin 0 t (x.1.2, x.1.1) (true, true) x.2]
      · obtain ⟨e, z⟩ := y
        obtain ⟨f, z'⟩ := x
        rw [hP.loc 0 t e f z z' (Or.inr _), mul_zero]
        by_contra k
        push Not at k
        obtain ⟨rfl, rfl⟩ := k
        exact h rfl
    simp only [h1]
    rw [← Equiv.sum_comp (Equiv.prodCongr (Equiv.prodComm Bool Bool) (Equiv.refl (Fin m))), Fintype.sum_prod_type, Finset.sum_comm]
    refine Finset.sum_congr rfl fun z _ => ?_
    rw [Finset.mul_sum]
    refine Finset.sum_congr rfl fun e _ => ?_
    simp only [Equiv.prodCongr_apply, Prod.map_apply, Equiv.prodComm_apply, Prod.swap, Equiv.refl_apply, Prod.mk.eta]
    ring
  · rw [if_neg c]
    have : P r t = 0 := by
      ext ⟨a, x⟩ ⟨b, y⟩
      exact hP.loc r t a b x y (Or.inl c)
    simp [this]

/-- The Dyson equation of the interaction for a local polarisation, element by element. -/
theorem dysonW_entry {dt : F} {J : Grid L 1 (Matrix (WIdx m) (WIdx m) F)} {P w : Grid L N (Matrix (WIdx m) (WIdx m) F)} (hP : SymP P) :
    DysonW dt J P w ↔ ∀ r (n : Fin N) p q, w r n p q =
      (∑ r1, ∑ z : Fin m, P 0 n ((true, true), z) ((true, true), z) * ∑ e : Bool × Bool, J r1 0 p (e, z) * J (r - r1) 0 ((e.2, e.1), z) q) +
      dt * ∑ r1, ∑ j : Fin N, 1 / 2 * ∑ z : Fin m, P 0 j ((true, true), z) ((true, true), z) * ∑ e : Bool × Bool, J r1 0 p (e, z) *
        (cont 0 (fun r t => w r t ((e.2, e.1), z) q) (r - r1) ((n : ℕ) - (j : ℕ)) + cont 0 (fun r t => w r t ((e.2, e.1), z) q) (r - r1) ((n : ℕ) - (j : ℕ) - 1)) := by
  unfold DysonW
  refine forall_congr' fun r => forall_congr' fun n => ?_
  rw [← Matrix.ext_iff]
  refine forall_congr' fun p => forall_congr' fun q => ?_
  rw [Matrix.add_apply, Matrix.smul_apply, smul_eq_mul]
  have h1 : conv1 J P J r n p q = ∑ r1, ∑ z : Fin m, P 0 n ((true, true), z) ((true, true), z) * ∑ e : Bool × Bool, J r1 0 p (e, z) * J (r - r1) 0 ((e.2, e.1), z) q := by
    unfold conv1
    simp only [Matrix.sum_apply, mul_polar hP]
    refine Finset.sum_congr rfl fun r1 _ => ?_
    rw [Finset.sum_ite_eq' Finset.univ (0 : ∀ i, Fin (L i)), if_pos (Finset.mem_univ _)]
    simp only [sub_zero]
  have h2 : conv2' 0 J P w r n p q = ∑ r1, ∑ j : Fin N, 1 / 2 * ∑ z : Fin m, P 0 j ((true, true), z) ((true, true), z) * ∑ e : Bool × Bool, J r1 0 p (e, z) *
        (cont 0 (fun r t => w r t ((e.2, e.1), z) q) (r - r1) ((n : ℕ) - (j : ℕ)) + cont 0 (fun r t => w r t ((e.2, e.1), z) q) (r - r1) ((n : ℕ) - (j : ℕ) - 1)) := by
    unfold conv2'
    simp only [Matrix.sum_apply, Matrix.smul_apply, mul_polar hP, smul_eq_mul, Matrix.add_apply, cont_entry]
    refine Finset.sum_congr rfl fun r1 _ => ?_
    rw [Finset.sum_comm]
    refine Finset.sum_congr rfl fun j _ => ?_
    rw [← Finset.mul_sum, Finset.sum_ite_eq' Finset.univ (0 : ∀ i, Fin (L i)), if_pos (Finset.mem_univ _)]
    simp only [sub_zero]
  rw [h1, h2]

theorem SymJ.entry {J : Grid L 1 (Matrix (WIdx m) (WIdx m) F)} (hJ : SymJ J) (r : ∀ i, Fin (L i)) (x y : WIdx m) :
    J r 0 x y = exchange x.1 y.1 (J r 0 ((true, true), x.2) ((true, true), y.2)) := hJ.spin r 0 x.1 y.1 x.2 y.2

/-- The solution of the Dyson equation of the interaction is an exchange interaction, real and even. -/
theorem symW_dyson {dt : F} (hdt : star dt = dt) {J : Grid L 1 (Matrix (WIdx m) (WIdx m) F)} {P w : Grid L N (Matrix (WIdx m) (WIdx m) F)} (hJ : SymJ J) (hP : SymP P) (h : DysonW dt J P w)
    (hu : ∀ w', DysonW dt J P w' → w' = w) : SymW w := by
  have h' := (dysonW_entry hP).1 h
  have get : ∀ w', DysonW dt J P w' → ∀ r t p q, w' r t p q = w r t p q := fun w' k r t p q => congrFun (congrFun (congrFun (congrFun (hu w' k) r) t) p) q
  -- rows with parallel spins
  have row : ∀ r t a q, w r t ((false, false), a) q = -w r t ((true, true), a) q := by
    intro r t a q
    rw [h', h' r t ((true, true), a) q]
    have e : ∀ r1 (x : WIdx m), J r1 0 ((false, false), a) x = -J r1 0 ((true, true), a) x := by
      intro r1 x
      rw [hJ.entry r1 ((false, false), a) x, hJ.entry r1 ((true, true), a) x]
      obtain ⟨⟨b, c⟩, z⟩ := x
      cases b <;> cases c <;> simp [exchange]
    simp only [e, neg_mul, Finset.sum_neg_distrib, mul_neg, neg_add]
  have spin : ∀ r t p q a b, w r t (p, a) (q, b) = exchange p q (w r t ((true, true), a) ((true, true), b)) := by
    intro r t p q a b
    refine (get (fun r t => Matrix.of fun p q => exchange p.1 q.1 (w r t ((true, true), p.2) ((true, true), q.2))) ?_ r t (p, a) (q, b)).symm
    rw [dysonW_entry hP]
    intro r n p q
    simp only [Matrix.of_apply]
    have c : ∀ (x y : Bool × Bool) (a b : Fin m) r z, cont 0 (fun r (t : Fin N) => exchange x y (w r t ((true, true), a) ((true, true), b))) r z =
        exchange x y (cont 0 (fun r t => w r t ((true, true), a) ((true, true), b)) r z) := by
      intro x y a b r z
      unfold cont
      simp
    have eA : ∀ (x y : Bool × Bool) (u v : F), exchange x y u + exchange x y v = exchange x y (u + v) := by
      intro x y u v
      rw [exchange_one x y u, exchange_one x y v, exchange_one x y (u + v)]
      ring
    have e1 : ∀ r1 z, ∑ e : Bool × Bool, J r1 0 p (e, z) * J (r - r1) 0 ((e.2, e.1), z) q =
        2 * exchange p.1 q.1 (J r1 0 ((true, true), p.2) ((true, true), z) * J (r - r1) 0 ((true, true), z) ((true, true), q.2)) := by
      intro r1 z
      rw [← exchange_contract]
      refine Finset.sum_congr rfl fun e _ => ?_
      rw [hJ.entry r1 p (e, z), hJ.entry (r - r1) ((e.2, e.1), z) q]
    have e2 : ∀ r1 z (X : F), ∑ e : Bool × Bool, J r1 0 p (e, z) * exchange (e.2, e.1) q.1 X = 2 * exchange p.1 q.1 (J r1 0 ((true, true), p.2) ((true, true), z) * X) := by
      intro r1 z X
      rw [← exchange_contract]
      refine Finset.sum_congr rfl fun e _ => ?_
      rw [hJ.entry r1 p (e, z)]
    have v := h' r n ((true, true), p.2) ((true, true), q.2)
    have e3 : ∀ r1 z, ∑ e : Bool × Bool, J r1 0 ((true, true), p.2) (e, z) * J (r - r1) 0 ((e.2, e.1), z) ((true, true), q.2) =
        2 * (J r1 0 ((true, true), p.2) ((true, true), z) * J (r - r1) 0 ((true, true), z) ((true, true), q.2)) := by
      intro r1 z
      rw [Fintype.sum_prod_type]
      simp only [Fintype.sum_bool]
      rw [hJ.entry r1 ((true, true), p.2) ((true, false), z), hJ.entry r1 ((true, true), p.2) ((false, true), z), hJ.entry r1 ((true, true), p.2) ((false, false), z),
        hJ.entry (r - r1) ((false, false), z) ((true, true), q.2)]
      simp [exchange]
      ring
    have e4 : ∀ r1 z r2 t1 t2, ∑ e : Bool × Bool, J r1 0 ((true, true), p.2) (e, z) *
        (cont 0 (fun r t => w r t ((e.2, e.1), z) ((true, true), q.2)) r2 t1 + cont 0 (fun r t => w r t ((e.2, e.1), z) ((true, true), q.2)) r2 t2) =
        2 * (J r1 0 ((true, true), p.2) ((true, true), z) *
          (cont 0 (fun r t => w r t ((true, true), z) ((true, true), q.2)) r2 t1 + cont 0 (fun r t => w r t ((true, true), z) ((true, true), q.2)) r2 t2)) := by
      intro r1 z r2 t1 t2
      have k : ∀ t, cont 0 (fun r t => w r t ((false, false), z) ((true, true), q.2)) r2 t = -cont 0 (fun r t => w r t ((true, true), z) ((true, true), q.2)) r2 t := by
        intro t
        unfold cont
        simp [row]
      rw [Fintype.sum_prod_type]
      simp only [Fintype.sum_bool]
      rw [hJ.entry r1 ((true, true), p.2) ((true, false), z), hJ.entry r1 ((true, true), p.2) ((false, true), z), hJ.entry r1 ((true, true), p.2) ((false, false), z), k, k]
      simp [exchange]
      ring
    simp only [e3, e4] at v
    simp only [c, eA, e1, e2]
    rw [v, exchange_one]
    simp only [exchange_one p.1 q.1 (_ * _)]
    rw [mul_add]
    congr 1
    · rw [Finset.mul_sum]
      refine Finset.sum_congr rfl fun r1 _ => ?_
      rw [Finset.mul_sum]
      refine Finset.sum_congr rfl fun z _ => ?_
      ring
    · rw [mul_left_comm]
      congr 1
      rw [Finset.mul_sum]
      refine Finset.sum_congr rfl fun r1 _ => ?_
      rw [Finset.mul_sum]
      refine Finset.sum_congr rfl fun j _ => ?_
      rw [mul_left_comm]
      congr 1
      rw [Finset.mul_sum]
      refine Finset.sum_congr rfl fun z _ => ?_
      ring
  have sc : ∀ r z (p q : WIdx m), cont 0 (fun r t => star (w r t p q)) r z = star (cont 0 (fun r t => w r t p q) r z) := by
    intro r z p q
    unfold cont
    simp
  refine ⟨spin, ?_, ?_⟩
  · intro r t p q
    refine get (fun r t => Matrix.of fun p q => star (w r t p q)) ?_ r t p q
    rw [dysonW_entry hP]
    intro r n p q
    simp only [Matrix.of_apply, sc]
    rw [h']
    simp only [star_add, star_sum, star_mul', hJ.real, hP.real, hdt, star_div₀, star_one, star_ofNat]
  · intro r t p q
    refine get (fun r t => Matrix.of fun p q => w r (Fin.rev t) p q) ?_ r t p q
    rw [dysonW_entry hP]
    intro r n p q
    simp only [Matrix.of_apply]
    rw [h' r (Fin.rev n)]
    simp only [hP.even]
    congr 2
    refine Finset.sum_congr rfl fun r1 _ => ?_
    rw [← Equiv.sum_comp Fin.revPerm]
    refine Finset.sum_congr rfl fun j _ => ?_
    simp only [Fin.revPerm_apply, hP.even]
    congr 1
    refine Finset.sum_congr rfl fun z _ => ?_
    congr 1
    refine Finset.sum_congr rfl fun e _ => ?_
    congr 1
    rw [cont_rev0 (fun r t => w r t ((e.2, e.1), z) q), cont_rev0 (fun r t => w r t ((e.2, e.1), z) q), add_comm]
    have a1 := j.2
    have a2 := n.2
    congr 2 <;> simp only [Fin.val_rev] <;> omega

/-! The first-order functions. -/

theorem SymG.last {g : Grid L N (Matrix (GIdx m) (GIdx m) F)} (h : SymG g) (r : ∀ i, Fin (L i)) (p q : GIdx m) (c : r ≠ 0 ∨ p ≠ q) : lastG g r p q = 0 := by
  unfold lastG binAt
  simp [h.loc _ _ _ _ c]

/-- No instantaneous self energy. -/
theorem deltaFirst_zero {g : Grid L N (Matrix (GIdx m) (GIdx m) F)} (h : SymG g) {J : Grid L 1 (Matrix (WIdx m) (WIdx m) F)} (hJ : SymJ J) : deltaFirst g J = fun _ _ => 0 := by
  funext r t
  ext p q
  unfold deltaFirst
  rw [Matrix.of_apply, Matrix.zero_apply]
  have h1 : (if p.1 = q.1 then ∑ s : Bool, -1 * -1 * lastG g r (s, p.2) (s, q.2) * J r 0 ((p.1, s), p.2) ((s, p.1), q.2) else 0) = 0 := by
    split_ifs
    · refine Finset.sum_eq_zero fun s _ => ?_
      by_cases c : r = 0 ∧ p.2 = q.2
      · rw [c.1, c.2, hJ.site, mul_zero]
      · rw [h.last r (s, p.2) (s, q.2) (by
          by_cases k : r = 0
          · right
            intro e
            exact c ⟨k, (Prod.mk.inj e).2⟩
          · exact Or.inl k), mul_zero, zero_mul]
    · rfl
  rw [h1, zero_add]
  split_ifs
  · have e1 : ∀ b, lastG g 0 (false, b) (false, b) = lastG g 0 (true, b) (true, b) := by
      intro b
      unfold lastG
      simp only [h.spin 0 _ false true b]
    rw [Fintype.sum_bool, ← Finset.sum_add_distrib]
    refine Finset.sum_eq_zero fun b _ => ?_
    rw [← Finset.sum_add_distrib]
    refine Finset.sum_eq_zero fun r' _ => ?_
    rw [e1, hJ.entry r' ((p.1, p.1), p.2) ((true, true), b), hJ.entry r' ((p.1, p.1), p.2) ((false, false), b)]
    obtain ⟨s, a⟩ := p
    cases s <;> simp [exchange]
  · rfl

theorem sigmaFirst_sym {g : Grid L N (Matrix (GIdx m) (GIdx m) F)} (h : SymG g) {w : Grid L N (Matrix (WIdx m) (WIdx m) F)} (hw : SymW w) : SymG (sigmaFirst g w) := by
  constructor
  · intro r t p q c
    unfold sigmaFirst
    rw [Matrix.of_apply]
    split_ifs with e
    · refine Finset.sum_eq_zero fun s _ => ?_
      rw [h.loc r t (s, p.2) (s, q.2), mul_zero, zero_mul]
      rcases c with c | c
      · exact Or.inl c
      · right
        intro k
        exact c (Prod.ext e (Prod.mk.inj k).2)
    · rfl
  · intro r t s s' a
    unfold sigmaFirst
    rw [Matrix.of_apply, Matrix.of_apply, if_pos rfl, if_pos rfl]
    simp only [Fintype.sum_bool]
    rw [h.spin r t false true a, hw.spin r t (s, true), hw.spin r t (s, false), hw.spin r t (s', true), hw.spin r t (s', false)]
    cases s <;> cases s' <;> simp [exchange] <;> ring
  · intro r t p q
    unfold sigmaFirst
    rw [Matrix.of_apply, Matrix.of_apply]
    split_ifs
    · simp only [star_sum, star_mul', star_neg, star_one, hw.real, hw.even, h.hole]
    · simp

theorem polarFirst_sym {g : Grid L N (Matrix (GIdx m) (GIdx m) F)} (h : SymG g) : SymP (polarFirst g) := by
  constructor
  · intro r t p q a b c
    unfold polarFirst
    rw [Matrix.of_apply]
    dsimp only
    split_ifs with e
    · rw [h.loc r t (p.2, a) (p.2, b), mul_zero]
      rcases c with c | c | c
      · exact Or.inl c
      · exact Or.inr fun k => c (Prod.mk.inj k).2
      · exact absurd e c
    · rfl
  · intro r t p q a
    unfold polarFirst
    rw [Matrix.of_apply, Matrix.of_apply]
    dsimp only
    rw [if_pos rfl, if_pos rfl, h.spin r _ p.1 q.1, h.spin r t p.2 q.2]
  · intro r t p q
    unfold polarFirst
    rw [Matrix.of_apply]
    split_ifs with e
    · simp only [star_mul', star_neg, star_one, h.hole, star_star]
      by_cases k : r = 0 ∧ p.2 = q.2
      · rw [k.2, h.spin r t p.1.1 p.1.2]
        ring
      · have z : ∀ s, g r t (s, p.2) (s, q.2) = 0 := fun s => h.loc r t _ _ (by
          by_cases k' : r = 0
          · right
            intro e
            exact k ⟨k', (Prod.mk.inj e).2⟩
          · exact Or.inl k')
        have z' : ∀ s, g r t (s, q.2) (s, p.2) = 0 := fun s => h.loc r t _ _ (by
          by_cases k' : r = 0
          · right
            intro e
            exact k ⟨k', (Prod.mk.inj e).2.symm⟩
          · exact Or.inl k')
        simp [z, z']
    · simp
  · intro r t p q
    unfold polarFirst
    rw [Matrix.of_apply, Matrix.of_apply]
    split_ifs with e
    · simp only [Fin.rev_rev, h.hole]
      by_cases k : r = 0 ∧ p.2 = q.2
      · rw [k.2, h.spin r t p.1.1 p.1.2]
        ring
      · have z : ∀ s, g r t (s, p.2) (s, q.2) = 0 := fun s => h.loc r t _ _ (by
          by_cases k' : r = 0
          · right
            intro e
            exact k ⟨k', (Prod.mk.inj e).2⟩
          · exact Or.inl k')
        have z' : ∀ s, g r t (s, q.2) (s, p.2) = 0 := fun s => h.loc r t _ _ (by
          by_cases k' : r = 0
          · right
            intro e
            exact k ⟨k', (Prod.mk.inj e).2.symm⟩
          · exact Or.inl k')
        simp [z, z']
    · rfl

end

end Feyn
