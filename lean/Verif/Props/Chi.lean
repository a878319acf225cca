import Verif.Spec.Chi
import Verif.Props.Converge
import Verif.Props.Isolated
import Mathlib.LinearAlgebra.FiniteDimensional.Basic
import Mathlib.LinearAlgebra.Matrix.ToLin

/-!
# The reported susceptibility (C79)
-/

namespace Feyn

set_option linter.unusedSectionVars false

section
variable {F : Type} [Field F] [StarRing F] [CharZero F] {d : ℕ} {L : Fin d → ℕ} {N m : ℕ} [∀ i, NeZero (L i)] [NeZero N]

/-- What the matrices of the three components have in common. -/
structure Component (SS : Bool × Bool → Bool × Bool → F) : Prop where
  exch : ∀ i q, ∑ k, SS i k * exchange k q 1 = 2 * SS i (q.2, q.1)
  norm : ∑ k : Bool × Bool, SS (k.2, k.1) k = 2

theorem component_x : Component (sxsx : Bool × Bool → Bool × Bool → F) := by
  refine ⟨fun i q => ?_, ?_⟩
  · obtain ⟨a, b⟩ := i
    obtain ⟨c, e⟩ := q
    simp only [Fintype.sum_prod_type, Fintype.sum_bool]
    cases a <;> cases b <;> cases c <;> cases e <;> simp [sxsx, exchange]
  · simp only [Fintype.sum_prod_type, Fintype.sum_bool]
    simp [sxsx]
    norm_num

theorem component_y : Component (sysy : Bool × Bool → Bool × Bool → F) := by
  refine ⟨fun i q => ?_, ?_⟩
  · obtain ⟨a, b⟩ := i
    obtain ⟨c, e⟩ := q
    simp only [Fintype.sum_prod_type, Fintype.sum_bool]
    cases a <;> cases b <;> cases c <;> cases e <;> simp [sysy, exchange]
  · simp only [Fintype.sum_prod_type, Fintype.sum_bool]
    simp [sysy]
    norm_num

theorem component_z : Component (szsz : Bool × Bool → Bool × Bool → F) := by
  refine ⟨fun i q => ?_, ?_⟩
  · obtain ⟨a, b⟩ := i
    obtain ⟨c, e⟩ := q
    simp only [Fintype.sum_prod_type, Fintype.sum_bool]
    cases a <;> cases b <;> cases c <;> cases e <;> simp [szsz, exchange] <;> norm_num
  · simp only [Fintype.sum_prod_type, Fintype.sum_bool]
    simp [szsz]
    norm_num

/-- The contraction of one matrix. -/
def contract (SS : Bool × Bool → Bool × Bool → F) (X : Matrix (WIdx m) (WIdx m) F) : Matrix (Fin m) (Fin m) F := Matrix.of fun a b => ∑ i, ∑ k, SS i k / 4 * X (k, a) (i, b)

theorem contractChi_eq (SS : Bool × Bool → Bool × Bool → F) (X : Grid L N (Matrix (WIdx m) (WIdx m) F)) (r : ∀ i, Fin (L i)) (t : Fin N) : contractChi SS X r t = contract SS (X r t) := rfl

/-- The contraction is linear. -/
def contractLin (SS : Bool × Bool → Bool × Bool → F) : Matrix (WIdx m) (WIdx m) F →ₗ[F] Matrix (Fin m) (Fin m) F where
  toFun := contract SS
  map_add' X Y := by
    ext a b
    simp [contract, mul_add, Finset.sum_add_distrib]
  map_smul' x X := by
    ext a b
    simp only [contract, Matrix.of_apply, Matrix.smul_apply, smul_eq_mul, RingHom.id_apply, Finset.mul_sum]
    refine Finset.sum_congr rfl fun i _ => Finset.sum_congr rfl fun k _ => ?_
    ring

theorem contractLin_apply (SS : Bool × Bool → Bool × Bool → F) (X : Matrix (WIdx m) (WIdx m) F) : contractLin SS X = contract SS X := rfl

theorem exchange_smul (k q : Bool × Bool) (x : F) : exchange k q x = exchange k q 1 * x := by
  unfold exchange
  split_ifs <;> ring

theorem mul_bubble {P : Grid L N (Matrix (WIdx m) (WIdx m) F)} (hP : SymP P) (A : Matrix (Fin m) (Fin m) F) (r : ∀ i, Fin (L i)) (t : Fin N) (a z : Fin m) :
    (A * bubble P r t) a z = if r = 0 then A a z * (-(1 / 2) * P 0 t ((true, true), z) ((true, true), z)) else 0 := by
  rw [Matrix.mul_apply]
  split_ifs with c
  · subst c
    rw [Finset.sum_eq_single z (fun y _ h => ?_) (fun h => absurd (Finset.mem_univ _) h)]
    · rfl
    · rw [bubble, Matrix.of_apply, hP.loc 0 t _ _ y z (.inr (.inl h)), mul_zero, mul_zero]
  · refine Finset.sum_eq_zero fun y _ => ?_
    rw [bubble, Matrix.of_apply, hP.loc r t _ _ y z (.inl c), mul_zero, mul_zero]

/-- Contraction of a product of interaction, polarisation and susceptibility. -/
theorem contract_mul {SS : Bool × Bool → Bool × Bool → F} (hS : Component SS) {J : Grid L 1 (Matrix (WIdx m) (WIdx m) F)} {P : Grid L N (Matrix (WIdx m) (WIdx m) F)} (hJ : SymJ J) (hP : SymP P)
    (r1 r2 : ∀ i, Fin (L i)) (t : Fin N) (X : Matrix (WIdx m) (WIdx m) F) : contract SS (J r1 0 * P r2 t * X) = -(constants J r1 0 * bubble P r2 t * contract SS X) := by
  ext a b
  rw [Matrix.neg_apply, Matrix.mul_apply]
  simp only [mul_bubble hP, contract, Matrix.of_apply, mul_polar hP, constants]
  by_cases c : r2 = 0
  · simp only [if_pos c]
    have e0 : ∀ (k e : Bool × Bool) (z : Fin m), J r1 0 (k, a) (e, z) = exchange k e 1 * J r1 0 ((true, true), a) ((true, true), z) := fun k e z => by
      rw [hJ.spin r1 0 k e a z, exchange_smul]
    rw [← Finset.sum_neg_distrib]
    have e1 : ∀ i k : Bool × Bool, SS i k / 4 * ∑ z : Fin m, P 0 t ((true, true), z) ((true, true), z) * ∑ e : Bool × Bool, J r1 0 (k, a) (e, z) * X ((e.2, e.1), z) (i, b) =
        ∑ z : Fin m, ∑ e : Bool × Bool, SS i k * exchange k e 1 * (P 0 t ((true, true), z) ((true, true), z) * J r1 0 ((true, true), a) ((true, true), z) * X ((e.2, e.1), z) (i, b) / 4) := by
      intro i k
      rw [Finset.mul_sum]
      refine Finset.sum_congr rfl fun z _ => ?_
      rw [Finset.mul_sum, Finset.mul_sum]
      refine Finset.sum_congr rfl fun e _ => ?_
      rw [e0]
      ring
    simp only [e1]
    have e2 : ∀ i : Bool × Bool, ∑ k : Bool × Bool, ∑ z : Fin m, ∑ e : Bool × Bool,
        SS i k * exchange k e 1 * (P 0 t ((true, true), z) ((true, true), z) * J r1 0 ((true, true), a) ((true, true), z) * X ((e.2, e.1), z) (i, b) / 4) =
        ∑ z : Fin m, ∑ e : Bool × Bool, 2 * SS i (e.2, e.1) * (P 0 t ((true, true), z) ((true, true), z) * J r1 0 ((true, true), a) ((true, true), z) * X ((e.2, e.1), z) (i, b) / 4) := by
      intro i
      rw [Finset.sum_comm]
      refine Finset.sum_congr rfl fun z _ => ?_
      rw [Finset.sum_comm]
      refine Finset.sum_congr rfl fun e _ => ?_
      rw [← Finset.sum_mul, hS.exch]
    simp only [e2]
    rw [Finset.sum_comm]
    refine Finset.sum_congr rfl fun z _ => ?_
    rw [Finset.mul_sum, ← Finset.sum_neg_distrib]
    refine Finset.sum_congr rfl fun i _ => ?_
    rw [← Equiv.sum_comp (Equiv.prodComm Bool Bool), Finset.mul_sum, ← Finset.sum_neg_distrib]
    refine Finset.sum_congr rfl fun e _ => ?_
    simp only [Equiv.prodComm_apply, Prod.swap, Prod.mk.eta]
    ring
  · simp [c]

/-- Contraction of a polarisation. -/
theorem contract_polar {SS : Bool × Bool → Bool × Bool → F} (hS : Component SS) {P : Grid L N (Matrix (WIdx m) (WIdx m) F)} (hP : SymP P) (r : ∀ i, Fin (L i)) (t : Fin N) :
    contract SS (P r t) = -bubble P r t := by
  ext a b
  have e : ∀ i k : Bool × Bool, SS i k / 4 * P r t (k, a) (i, b) = if i = (k.2, k.1) then SS i k / 4 * P r t ((true, true), a) ((true, true), b) else 0 := by
    intro i k
    split_ifs with c
    · subst c
      by_cases ab : a = b
      · subst ab
        rw [hP.spin r t k (true, true) a]
      · rw [hP.loc r t _ _ a b (.inr (.inl ab)), hP.loc r t _ _ a b (.inr (.inl ab))]
    · rw [hP.loc r t _ _ a b (.inr (.inr c)), mul_zero]
  simp only [contract, Matrix.of_apply, e, bubble, Matrix.neg_apply]
  rw [Finset.sum_comm]
  simp only [Finset.sum_ite_eq', Finset.mem_univ, if_true]
  rw [← Finset.sum_mul, ← Finset.sum_div, hS.norm]
  ring

theorem cont_lin {S S' : Type} (φ : Matrix S S F →ₗ[F] Matrix S' S' F) (σ : ℕ) (x : Grid L N (Matrix S S F)) (r : ∀ i, Fin (L i)) (z : ℤ) : cont σ (fun r t => φ (x r t)) r z = φ (cont σ x r z) := by
  unfold cont
  split_ifs
  · rw [map_neg]
  · rfl

theorem conv_lin {S S' : Type} [Fintype S] [DecidableEq S] [Fintype S'] [DecidableEq S'] (φ : Matrix S S F →ₗ[F] Matrix S' S' F) {A : Grid L 1 (Matrix S S F)} {A' : Grid L 1 (Matrix S' S' F)}
    {B : Grid L N (Matrix S S F)} {B' : Grid L N (Matrix S' S' F)} (h : ∀ r1 r2 t X, φ (A r1 0 * B r2 t * X) = -(A' r1 0 * B' r2 t * φ X)) (X : Grid L N (Matrix S S F)) (r : ∀ i, Fin (L i)) (n : Fin N) :
    φ (conv2' 0 A B X r n) = -conv2' 0 A' B' (fun r t => φ (X r t)) r n := by
  unfold conv2'
  rw [map_sum, ← Finset.sum_neg_distrib]
  refine Finset.sum_congr rfl fun r1 _ => ?_
  rw [map_sum, ← Finset.sum_neg_distrib]
  refine Finset.sum_congr rfl fun r2 _ => ?_
  rw [map_sum, ← Finset.sum_neg_distrib]
  refine Finset.sum_congr rfl fun j _ => ?_
  rw [map_smul, h, ← smul_neg, map_add, cont_lin, cont_lin]

theorem conv_add {S : Type} [Fintype S] [DecidableEq S] (A : Grid L 1 (Matrix S S F)) (B X Y : Grid L N (Matrix S S F)) (r : ∀ i, Fin (L i)) (n : Fin N) :
    conv2' 0 A B (fun r t => X r t + Y r t) r n = conv2' 0 A B X r n + conv2' 0 A B Y r n := by
  have e : ∀ r z, cont 0 (fun r t => X r t + Y r t) r z = cont 0 X r z + cont 0 Y r z := by
    intro r z
    unfold cont
    simp
  unfold conv2'
  simp only [e, ← Finset.sum_add_distrib, ← smul_add, ← mul_add]
  refine Finset.sum_congr rfl fun r1 _ => Finset.sum_congr rfl fun r2 _ => Finset.sum_congr rfl fun j _ => ?_
  congr 2
  abel

/-- The contraction of the tensor solves the equation of the random phase approximation with exchanged factors. -/
theorem contract_dyson {SS : Bool × Bool → Bool × Bool → F} (hS : Component SS) {dt : F} {J : Grid L 1 (Matrix (WIdx m) (WIdx m) F)} {P X : Grid L N (Matrix (WIdx m) (WIdx m) F)} (hJ : SymJ J) (hP : SymP P)
    (h : DysonChi dt J P X) : RpaExchanged dt (constants J) (bubble P) (contractChi SS X) := by
  intro r n
  have key := congrArg (contractLin SS) (h r n)
  rw [map_add, map_neg, map_smul, contractLin_apply, contractLin_apply, contract_polar hS hP, neg_neg, conv_lin (contractLin SS) (contract_mul hS hJ hP)] at key
  rw [contractChi_eq, key, sub_eq_add_neg, ← smul_neg]
  rfl

/-- A tensor with a given contraction. -/
def liftLin : Matrix (Fin m) (Fin m) F →ₗ[F] Matrix (WIdx m) (WIdx m) F where
  toFun y := Matrix.of fun p q => szsz p.1 q.1 * y p.2 q.2
  map_add' X Y := by
    ext p q
    simp [mul_add]
  map_smul' x X := by
    ext p q
    simp only [Matrix.of_apply, Matrix.smul_apply, smul_eq_mul, RingHom.id_apply]
    ring

theorem liftLin_apply (y : Matrix (Fin m) (Fin m) F) (p q : WIdx m) : liftLin y p q = szsz p.1 q.1 * y p.2 q.2 := rfl

theorem contract_lift (y : Matrix (Fin m) (Fin m) F) : contract szsz (liftLin y) = y := by
  ext a b
  simp only [contract, Matrix.of_apply, liftLin_apply, Fintype.sum_prod_type, Fintype.sum_bool]
  simp [szsz]
  ring

theorem lift_mul {J : Grid L 1 (Matrix (WIdx m) (WIdx m) F)} {P : Grid L N (Matrix (WIdx m) (WIdx m) F)} (hJ : SymJ J) (hP : SymP P) (r1 r2 : ∀ i, Fin (L i)) (t : Fin N) (y : Matrix (Fin m) (Fin m) F) :
    liftLin (constants J r1 0 * bubble P r2 t * y) = -(J r1 0 * P r2 t * liftLin y) := by
  ext ⟨k, a⟩ ⟨i, b⟩
  rw [liftLin_apply, Matrix.neg_apply, mul_polar hP, Matrix.mul_apply]
  simp only [mul_bubble hP, liftLin_apply, constants, Matrix.of_apply]
  by_cases c : r2 = 0
  · simp only [if_pos c]
    rw [Finset.mul_sum, ← Finset.sum_neg_distrib]
    refine Finset.sum_congr rfl fun z _ => ?_
    have e0 : ∀ e : Bool × Bool, J r1 0 (k, a) (e, z) * (szsz (e.2, e.1) i * y z b) = exchange k e 1 * szsz (e.2, e.1) i * (J r1 0 ((true, true), a) ((true, true), z) * y z b) := fun e => by
      rw [hJ.spin r1 0 k e a z, exchange_smul]
      ring
    have e1 : ∑ e : Bool × Bool, exchange k e 1 * szsz (e.2, e.1) i = 2 * (szsz k i : F) := by
      obtain ⟨k1, k2⟩ := k
      obtain ⟨i1, i2⟩ := i
      simp only [Fintype.sum_prod_type, Fintype.sum_bool]
      cases k1 <;> cases k2 <;> cases i1 <;> cases i2 <;> simp [szsz, exchange] <;> norm_num
    simp only [e0]
    rw [← Finset.sum_mul, e1]
    ring
  · simp [c]

/-- The equation with exchanged factors has exactly one solution if that of the tensor has. -/
theorem rpa_unique {dt : F} {J : Grid L 1 (Matrix (WIdx m) (WIdx m) F)} {P : Grid L N (Matrix (WIdx m) (WIdx m) F)} (hJ : SymJ J) (hP : SymP P) {X : Grid L N (Matrix (WIdx m) (WIdx m) F)}
    (h : ∀ x, DysonChi dt J P x ↔ x = X) (y : Grid L N (Matrix (Fin m) (Fin m) F)) : RpaExchanged dt (constants J) (bubble P) y ↔ y = contractChi szsz X := by
  have hX := contract_dyson component_z hJ hP ((h X).2 rfl)
  refine ⟨fun hy => ?_, fun e => e ▸ hX⟩
  set u : Grid L N (Matrix (Fin m) (Fin m) F) := fun r t => y r t - contractChi szsz X r t with hu
  have eu : ∀ r n, u r n = -(dt • conv2' 0 (constants J) (bubble P) u r n) := by
    intro r n
    have e : conv2' 0 (constants J) (bubble P) y r n = conv2' 0 (constants J) (bubble P) u r n + conv2' 0 (constants J) (bubble P) (contractChi szsz X) r n := by
      rw [← conv_add]
      congr 2
      funext r t
      simp [hu]
    have h1 := hy r n
    have h2 := hX r n
    rw [e] at h1
    simp only [hu] at h1 ⊢
    nth_rewrite 1 [h1]
    nth_rewrite 1 [h2]
    rw [smul_add]
    abel
  have hs : DysonChi dt J P fun r t => X r t + liftLin (u r t) := by
    intro r n
    rw [conv_add]
    have h1 := (h X).2 rfl r n
    have h2 := congrArg liftLin (eu r n)
    rw [map_neg, map_smul, conv_lin liftLin (fun r1 r2 t y => lift_mul hJ hP r1 r2 t y), smul_neg, neg_neg] at h2
    change X r n + liftLin (u r n) = _
    nth_rewrite 1 [h1]
    nth_rewrite 1 [h2]
    rw [smul_add]
    abel
  have := (h _).1 hs
  funext r t
  have e := congrFun (congrFun this r) t
  have e0 : liftLin (u r t) = 0 := by simpa using e
  have e1 := contract_lift (u r t)
  rw [e0, ← contractLin_apply, map_zero] at e1
  exact sub_eq_zero.1 e1.symm

theorem contract_z (X : Grid L N (Matrix (WIdx m) (WIdx m) F)) : contractChi szsz X = alongZ X := by
  funext r t
  ext a b
  simp only [contractChi, alongZ, Matrix.of_apply, Fintype.sum_prod_type, Fintype.sum_bool]
  simp [szsz]
  ring

/-- **C79**: the susceptibility that is reported, in lattice vector and time, is the correlation of the `z` components of the tensor plus the product of the magnetisations. -/
theorem C79_measured {κ κg : Kind} {E : Phase F} (hb : κ.beta ≠ 0) (hg : κg.beta ≠ 0) {X : Plain L N (Matrix (WIdx m) (WIdx m) F)} {G : Plain L N (Matrix (GIdx m) (GIdx m) F)}
    {x : Grid L N (Matrix (WIdx m) (WIdx m) F)} {g : Grid L N (Matrix (GIdx m) (GIdx m) F)} (hX : X.Shows κ E x) (hG : G.Shows κg E g) :
    let c := measuredChi κ κg E X G
    c.space = false ∧ c.time = false ∧ ∀ r t a b, c.data r t a b = alongZ x r t a b + magnetisation g a * magnetisation g b := by
  have eX := (shows_RT hb hX).1
  have eG := (shows_RT hg hG).1
  have h1 := (C63_transform κ E (bins_pos N) (axes_pos L) hb X x hX [.R, .T]).2
  have s1 : (X.fft κ E [.R, .T]).space = false := by rw [h1.1]; simp [after]
  have s2 : (X.fft κ E [.R, .T]).time = false := by rw [h1.2]; simp [after]
  set Y := calculateChi (addZeroth κ κg E X G) with hY
  have hS : Y.Shows κ E Y.data := by
    have a1 : Y.space = false := s1
    have a2 : Y.time = false := s2
    unfold Plain.Shows
    rw [a1, a2]
    exact (κ.view_false E _).symm
  have h2 := (C63_transform κ E (bins_pos N) (axes_pos L) hb Y _ hS [.R, .T]).2
  have e2 := (shows_RT hb hS).1
  refine ⟨?_, ?_, ?_⟩
  · change (Y.fft κ E [.R, .T]).space = false
    rw [h2.1]; simp [after]
  · change (Y.fft κ E [.R, .T]).time = false
    rw [h2.2]; simp [after]
  · intro r t a b
    change (Y.fft κ E [.R, .T]).data r t a b = _
    rw [e2, hY]
    change contractChi szsz (addZeroth κ κg E X G).data r t a b = _
    rw [contract_z]
    unfold addZeroth
    simp only [eX, eG, alongZ, magnetisation, Matrix.of_apply, Matrix.add_apply]
    ring

/-- No magnetisation without field. -/
theorem magnetisation_zero {g : Grid L N (Matrix (GIdx m) (GIdx m) F)} (h : SymG g) (a : Fin m) : magnetisation g a = 0 := by
  unfold magnetisation lastG
  have e : (fun t => g 0 t (false, a) (false, a)) = fun t => g 0 t (true, a) (true, a) := by
    funext t
    exact h.spin 0 t false true a
  rw [e, sub_self, zero_div]

/-- With equal sublattices the order of the factors does not matter. -/
theorem rpa_order {dt : F} {j : Grid L 1 (Matrix (Fin m) (Fin m) F)} {P : Grid L N (Matrix (WIdx m) (WIdx m) F)} (hP : SymP P)
    (he : ∀ t a b, P 0 t ((true, true), a) ((true, true), a) = P 0 t ((true, true), b) ((true, true), b)) (y : Grid L N (Matrix (Fin m) (Fin m) F)) :
    Rpa dt j (bubble P) y ↔ RpaExchanged dt j (bubble P) y := by
  have comm : ∀ r1 r2 t, bubble P r1 t * j r2 0 = j r2 0 * bubble P r1 t := by
    intro r1 r2 t
    ext a b
    rw [mul_bubble hP, Matrix.mul_apply]
    split_ifs with c
    · subst c
      rw [Finset.sum_eq_single a (fun z _ h => ?_) (fun h => absurd (Finset.mem_univ _) h)]
      · rw [bubble, Matrix.of_apply, he t a b, mul_comm]
      · rw [bubble, Matrix.of_apply, hP.loc 0 t _ _ a z (.inr (.inl h.symm)), mul_zero, zero_mul]
    · refine Finset.sum_eq_zero fun z _ => ?_
      rw [bubble, Matrix.of_apply, hP.loc r1 t _ _ a z (.inl c), mul_zero, zero_mul]
  have e : ∀ r n, conv2 0 (bubble P) j y r n = conv2' 0 j (bubble P) y r n := by
    intro r n
    unfold conv2 conv2'
    rw [Finset.sum_comm]
    refine Finset.sum_congr rfl fun r2 _ => Finset.sum_congr rfl fun r1 _ => Finset.sum_congr rfl fun t _ => ?_
    rw [comm, sub_right_comm]
  unfold Rpa RpaExchanged
  simp only [e]

/-- **C79**: if `W_Dyson` returns in zero field, the susceptibility that is reported is the one solution of the equation of the random phase approximation with exchanged factors, and if the
sublattices have equal polarisations, it is the one solution of the equation of the random phase approximation. The exchange constants and the bare susceptibility in it are those of the
bare interaction and the polarisation. -/
theorem C79_rpa_partial {κ κ0 κg : Kind} {E : Phase F} (hκ : κ.beta ≠ 0 ∧ κ.hasTau = true ∧ κ.sym = true) (hκ0 : κ0.beta ≠ 0 ∧ κ0.hasTau = false) (hg : κg.beta ≠ 0)
    {solve : Solver (WIdx m) F} (hs : solve.Good) {touches : Grid L N (Matrix (WIdx m) (WIdx m) F) → Bool} {W0 : Plain L 1 (Matrix (WIdx m) (WIdx m) F)} {Polar W X : Plain L N (Matrix (WIdx m) (WIdx m) F)}
    {G : Plain L N (Matrix (GIdx m) (GIdx m) F)} {J : Grid L 1 (Matrix (WIdx m) (WIdx m) F)} {P : Grid L N (Matrix (WIdx m) (WIdx m) F)} {g : Grid L N (Matrix (GIdx m) (GIdx m) F)}
    (hJ : W0.Shows κ0 E J) (hP : Polar.Shows κ E P) (hG : G.Shows κg E g) (sJ : SymJ J) (sP : SymP P) (sG : SymG g) (h : wDyson κ κ0 E solve touches W0 Polar = .done (W, X)) :
    (∀ y, RpaExchanged ((κ.beta / N : ℚ) : F) (constants J) (bubble P) y ↔ (measuredChi κ κg E X G).data = y) ∧
      ((∀ t a b, P 0 t ((true, true), a) ((true, true), a) = P 0 t ((true, true), b) ((true, true), b)) →
        ∀ y, Rpa ((κ.beta / N : ℚ) : F) (constants J) (bubble P) y ↔ (measuredChi κ κg E X G).data = y) := by
  have hX := ((C64_W κ κ0 E hκ.1 hκ.2.1 hκ.2.2 hκ0.1 hκ0.2 solve hs touches W0 Polar J P hJ hP).1 W X h).2
  obtain ⟨x, sx, -⟩ := C63_faithful κ E (bins_pos N) (axes_pos L) hκ.1 X
  have hx : ∀ y, DysonChi ((κ.beta / N : ℚ) : F) J P y ↔ y = x := by
    intro y
    rw [← hX]
    exact ⟨fun k => k.unique hκ.1 sx, fun k => k ▸ sx⟩
  have e : (measuredChi κ κg E X G).data = contractChi szsz x := by
    rw [contract_z]
    funext r t
    ext a b
    rw [(C79_measured hκ.1 hg sx hG).2.2 r t a b, magnetisation_zero sG, zero_mul, add_zero]
  have k : ∀ y, RpaExchanged ((κ.beta / N : ℚ) : F) (constants J) (bubble P) y ↔ (measuredChi κ κg E X G).data = y := by
    intro y
    rw [rpa_unique sJ sP hx, e, eq_comm]
  refine ⟨k, fun he y => ?_⟩
  rw [rpa_order sP he, k]

/-- **C79**: in zero field the three components of the spin have the same correlations. -/
theorem C79_rotation {dt : F} {J : Grid L 1 (Matrix (WIdx m) (WIdx m) F)} {P X : Grid L N (Matrix (WIdx m) (WIdx m) F)} (sJ : SymJ J) (sP : SymP P) (h : ∀ x, DysonChi dt J P x ↔ x = X) :
    contractChi sxsx X = contractChi szsz X ∧ contractChi sysy X = contractChi szsz X :=
  ⟨(rpa_unique sJ sP h _).1 (contract_dyson component_x sJ sP ((h X).2 rfl)), (rpa_unique sJ sP h _).1 (contract_dyson component_y sJ sP ((h X).2 rfl))⟩

end

section
variable {d : ℕ} {L : Fin d → ℕ} {N m : ℕ} [∀ i, NeZero (L i)] [NeZero N]

theorem spin_bin {beta : ℝ} (hb : beta ≠ 0) (N : ℕ) [NeZero N] (t : Fin N) : tauGrid beta N t + tauGrid beta N (Fin.rev t) = beta := by
  have hN : (N : ℝ) ≠ 0 := Nat.cast_ne_zero.2 (NeZero.ne N)
  have h : (t : ℕ) + (Fin.rev t : ℕ) + 1 = N := by
    rw [Fin.val_rev]
    omega
  have h' : ((t : ℕ) : ℝ) + ((Fin.rev t : ℕ) : ℝ) + 1 = N := by exact_mod_cast h
  unfold tauGrid
  rw [← add_mul, show ((t : ℕ) : ℝ) + 0.5 + (((Fin.rev t : ℕ) : ℝ) + 0.5) = N by linarith]
  field_simp

/-- The connected part of the correlation of one spin with itself. -/
theorem spin_bubble {beta : ℝ} (hb : beta ≠ 0) (h : ℝ) (t : Fin N) :
    expKernel (spinMu false beta h 0) beta (tauGrid beta N (Fin.rev t)) * expKernel (spinMu false beta h 0) beta (tauGrid beta N t) +
      expKernel (spinMu false beta h 1) beta (tauGrid beta N (Fin.rev t)) * expKernel (spinMu false beta h 1) beta (tauGrid beta N t) = 1 / Complex.cosh (beta * h / 2) ^ 2 := by
  obtain ⟨h0, h1⟩ := spinMu_exp hb h
  obtain ⟨hz, hne⟩ := fockZ_spin hb h
  have hz' := hne
  rw [fockZ_eq] at hz'
  obtain ⟨n0, n1⟩ := mul_ne_zero_iff.1 hz'
  rw [hz] at hne
  have hne' := (mul_ne_zero_iff.1 hne).2
  have e : ∀ mu : ℂ, expKernel mu beta (tauGrid beta N (Fin.rev t)) * expKernel mu beta (tauGrid beta N t) = Complex.exp (mu * beta) / (1 + Complex.exp (mu * beta)) ^ 2 := by
    intro mu
    unfold expKernel
    rw [div_mul_div_comm, ← Complex.exp_add, ← mul_add, ← Complex.ofReal_add, add_comm, spin_bin hb, sq]
  rw [e, e]
  rw [h0] at n0 ⊢
  rw [h1] at n1 ⊢
  have ef : Complex.exp (beta * h / 2) * Complex.exp (-(beta * h / 2)) = 1 := by rw [← Complex.exp_add]; simp
  have hcosh : Complex.cosh (beta * h / 2) = (Complex.exp (beta * h / 2) + Complex.exp (-(beta * h / 2))) / 2 := rfl
  rw [hcosh]
  generalize Complex.exp (beta * h / 2) = A at *
  generalize Complex.exp (-(beta * h / 2)) = B at *
  have p : (1 + Complex.I * A) * (1 + Complex.I * B) = Complex.I * (A + B) := by linear_combination Complex.I ^ 2 * ef + Complex.I_sq
  rw [div_add_div _ _ (pow_ne_zero 2 n0) (pow_ne_zero 2 n1), ← mul_pow, p, div_pow, one_div_div, div_eq_div_iff (pow_ne_zero 2 hne) (pow_ne_zero 2 hne')]
  have q : Complex.I * A * (1 + Complex.I * B) ^ 2 + (1 + Complex.I * A) ^ 2 * (Complex.I * B) = -4 := by
    have i3 : Complex.I ^ 3 = -Complex.I := by rw [pow_succ, Complex.I_sq]; ring
    linear_combination (4 * Complex.I ^ 2 + Complex.I ^ 3 * (A + B)) * ef + (4 : ℂ) * Complex.I_sq + (A + B) * i3
  rw [q]
  linear_combination (-4 * (A + B) ^ 2) * Complex.I_sq

theorem free_polar {beta : ℝ} (hb : beta ≠ 0) (delta external : Fin m → ℝ) {ι : (∀ i, Fin (L i)) → ℕ} (hι : ∀ r, ι r = 0 ↔ r = 0) (r : ∀ i, Fin (L i)) (t : Fin N) (a b : Fin m) :
    alongZ (fun r t => -polarFirst (freeG L N beta delta external ι) r t) r t a b = if r = 0 ∧ a = b then 1 / (4 * Complex.cosh (beta * ((delta a + external a : ℝ) : ℂ) / 2) ^ 2) else 0 := by
  simp only [alongZ, polarFirst, freeG, Matrix.of_apply, Matrix.neg_apply, spinBareG, hι]
  by_cases c : r = 0 ∧ a = b
  · obtain ⟨rfl, rfl⟩ := c
    have := spin_bubble (N := N) hb (delta a + external a) t
    simp
    rw [show ∀ x y : ℂ, (x + y) / 4 = (y + x) * (1 / 4) from fun x y => by ring]
    rw [Fin.val_rev] at this
    push_cast at this
    rw [this]
    ring
  · have c' : ¬ (b = a ∧ r = 0) ∧ ¬ (a = b ∧ r = 0) := ⟨fun h => c ⟨h.2, h.1.symm⟩, fun h => c ⟨h.2, h.1⟩⟩
    simp [c, c'.1, c'.2]

theorem free_magnetisation (hN : 2 ≤ N) (beta : ℝ) (delta external : Fin m → ℝ) {ι : (∀ i, Fin (L i)) → ℕ} (hι : ι 0 = 0) (a : Fin m) :
    magnetisation (freeG L N beta delta external ι) a = measureSz N fun s => spinBareG false beta N delta external s a s a 0 := by
  have hlast : ∀ f : ℕ → ℂ, 3 / 2 * binAt (fun t : Fin N => f t) (N - 1) - 1 / 2 * binAt (fun t : Fin N => f t) (N - 2) = lastBins N f := by
    intro f
    unfold binAt lastBins
    rw [dif_pos ⟨by omega, by omega⟩, dif_pos ⟨by omega, by omega⟩]
    simp only
    rw [show ((N : ℤ) - 1).toNat = N - 1 by omega, show ((N : ℤ) - 2).toNat = N - 2 by omega]
    norm_num
  unfold magnetisation lastG freeG measureSz
  simp only [Matrix.of_apply, hι, Bool.false_eq_true, if_false, if_true]
  rw [hlast fun t => spinBareG false beta N delta external 0 a 0 a 0 t, hlast fun t => spinBareG false beta N delta external 1 a 1 a 0 t]
  ring

theorem dysonChi_zero {F : Type} [Field F] [CharZero F] (dt : F) (P x : Grid L N (Matrix (WIdx m) (WIdx m) F)) : DysonChi dt (fun _ _ => 0) P x ↔ x = fun r t => -P r t := by
  unfold DysonChi
  have e : ∀ r n, conv2' 0 (fun _ _ => 0) P x r n = 0 := by
    intro r n
    unfold conv2'
    simp
  simp only [e, smul_zero, add_zero]
  exact ⟨fun h => funext fun r => funext fun n => h r n, fun h r n => by rw [h]⟩

theorem dysonW_zero {F : Type} [Field F] [CharZero F] (dt : F) (P x : Grid L N (Matrix (WIdx m) (WIdx m) F)) : DysonW dt (fun _ _ => 0) P x ↔ x = fun _ _ => 0 := by
  unfold DysonW
  have e : ∀ r n, conv2' 0 (fun _ _ => 0) P x r n = 0 := by
    intro r n
    unfold conv2'
    simp
  have e' : ∀ r n, conv1 (fun _ _ => 0) P (fun _ _ => 0) r n = 0 := by
    intro r n
    unfold conv1
    simp
  simp only [e, e', smul_zero, add_zero]
  exact ⟨fun h => funext fun r => funext fun n => h r n, fun h r n => by rw [h]⟩

/-- **C79**: without exchange `W_Dyson` returns, and the reported susceptibility of the bare propagators is `1 / (4 cosh² (β h / 2))` for a spin with itself, plus the product of the
reported spins, at all times. -/
theorem C79_free {κ κ0 κg : Kind} {E : Phase ℂ} (hκ : κ.beta ≠ 0 ∧ κ.hasTau = true ∧ κ.sym = true) (hκ0 : κ0.beta ≠ 0 ∧ κ0.hasTau = false) (hg : κg.beta ≠ 0)
    {solve : Solver (WIdx m) ℂ} (hs : solve.Good) {touches : Grid L N (Matrix (WIdx m) (WIdx m) ℂ) → Bool} (ht : ∀ x, touches x = false) {W0 : Plain L 1 (Matrix (WIdx m) (WIdx m) ℂ)}
    {Polar : Plain L N (Matrix (WIdx m) (WIdx m) ℂ)} {G : Plain L N (Matrix (GIdx m) (GIdx m) ℂ)} {beta : ℝ} (hb : beta ≠ 0) (hN : 2 ≤ N) (delta external : Fin m → ℝ)
    {ι : (∀ i, Fin (L i)) → ℕ} (hι : ∀ r, ι r = 0 ↔ r = 0) (hJ : W0.Shows κ0 E fun _ _ => 0) (hP : Polar.Shows κ E (polarFirst (freeG L N beta delta external ι)))
    (hG : G.Shows κg E (freeG L N beta delta external ι)) :
    ∃ W X, wDyson κ κ0 E solve touches W0 Polar = .done (W, X) ∧ ∀ r t a b, (measuredChi κ κg E X G).data r t a b =
      (if r = 0 ∧ a = b then 1 / (4 * Complex.cosh (beta * ((delta a + external a : ℝ) : ℂ) / 2) ^ 2) else 0) +
        (measureSz N fun s => spinBareG false beta N delta external s a s a 0) * measureSz N fun s => spinBareG false beta N delta external s b s b 0 := by
  obtain ⟨⟨W, X⟩, h⟩ := wDyson_done hκ hκ0 hs ht hJ hP ⟨_, (dysonW_zero _ _ _).2 rfl, fun y hy => (dysonW_zero _ _ _).1 hy⟩
  refine ⟨W, X, h, fun r t a b => ?_⟩
  have hX := (((C64_W κ κ0 E hκ.1 hκ.2.1 hκ.2.2 hκ0.1 hκ0.2 solve hs touches W0 Polar _ _ hJ hP).1 W X h).2 _).2 ((dysonChi_zero _ _ _).2 rfl)
  rw [(C79_measured hκ.1 hg hX hG).2.2 r t a b, free_polar hb delta external hι, free_magnetisation hN _ _ _ ((hι 0).2 rfl), free_magnetisation hN _ _ _ ((hι 0).2 rfl)]

/-- **C79**: as the bins are refined this tends to the correlation of independent spins: `1/4` for a spin with itself and the product of the averages for different ones. -/
theorem C79_free_limit {beta : ℝ} (hb : beta ≠ 0) (delta external : Fin m → ℝ) (r : ∀ i, Fin (L i)) (a b : Fin m) :
    Filter.Tendsto (fun N => (if r = 0 ∧ a = b then 1 / (4 * Complex.cosh (beta * ((delta a + external a : ℝ) : ℂ) / 2) ^ 2) else 0) +
        (measureSz N fun s => spinBareG false beta N delta external s a s a 0) * measureSz N fun s => spinBareG false beta N delta external s b s b 0) Filter.atTop
      (nhds (if r = 0 ∧ a = b then spinMean beta (delta a + external a) ![1 / 4, 1 / 4]
        else spinMean beta (delta a + external a) ![1 / 2, -1 / 2] * spinMean beta (delta b + external b) ![1 / 2, -1 / 2])) := by
  have ha := C69_measured hb delta external a
  have hb' := C69_measured hb delta external b
  have l := (ha.1.mul hb'.1).const_add (if r = 0 ∧ a = b then 1 / (4 * Complex.cosh (beta * ((delta a + external a : ℝ) : ℂ) / 2) ^ 2) else 0)
  convert l using 2
  split_ifs with c
  · obtain ⟨-, rfl⟩ := c
    set h := delta a + external a
    rw [ha.2.1]
    obtain ⟨hz, hne⟩ := fockZ_spin hb h
    rw [hz] at hne
    have hne' := (mul_ne_zero_iff.1 hne).2
    push_cast
    have ef : Complex.exp (beta * h / 2) * Complex.exp (-(beta * h / 2)) = 1 := by rw [← Complex.exp_add]; simp
    rw [Complex.tanh_eq_sinh_div_cosh, Complex.sinh, Complex.cosh, spinMean]
    simp only [Matrix.cons_val_zero, Matrix.cons_val_one]
    generalize Complex.exp (beta * h / 2) = A at *
    generalize Complex.exp (-(beta * h / 2)) = B at *
    field_simp
    linear_combination (16 : ℂ) * ef
  · rw [zero_add]

end

section
variable {F : Type} [Field F] [StarRing F] [CharZero F] {d : ℕ} {L : Fin d → ℕ} {N m : ℕ} [∀ i, NeZero (L i)] [NeZero N]

theorem fixed_unique {V : Type} [AddCommGroup V] [Module F V] [FiniteDimensional F V] (K : V →ₗ[F] V) (h : ∀ v, v = K v → v = 0) (b : V) : ∃! x, x = b + K x := by
  have hi : Function.Injective (LinearMap.id - K : V →ₗ[F] V) := by
    rw [← LinearMap.ker_eq_bot, LinearMap.ker_eq_bot']
    intro v hv
    refine h v (sub_eq_zero.1 ?_)
    simpa using hv
  obtain ⟨x, hx⟩ := LinearMap.injective_iff_surjective.1 hi b
  have e : ∀ y, y = b + K y ↔ (LinearMap.id - K : V →ₗ[F] V) y = b := fun y => by
    rw [LinearMap.sub_apply, LinearMap.id_apply, sub_eq_iff_eq_add]
  refine ⟨x, (e x).2 hx, fun y hy => hi ?_⟩
  rw [(e y).1 hy, hx]

/-- The convolution of the equations as a linear map. -/
def convLin {S : Type} [Fintype S] [DecidableEq S] (dt : F) (A : Grid L 1 (Matrix S S F)) (B : Grid L N (Matrix S S F)) : Grid L N (Matrix S S F) →ₗ[F] Grid L N (Matrix S S F) where
  toFun X := fun r n => dt • conv2' 0 A B X r n
  map_add' X Y := by
    funext r n
    change dt • conv2' 0 A B (fun r t => X r t + Y r t) r n = _
    rw [conv_add, smul_add]
    rfl
  map_smul' x X := by
    have e : ∀ r z, cont 0 (x • X) r z = x • cont 0 X r z := by
      intro r z
      unfold cont
      simp
    funext r n
    simp only [Pi.smul_apply, RingHom.id_apply]
    rw [smul_comm]
    congr 1
    unfold conv2'
    simp only [Finset.smul_sum, e]
    refine Finset.sum_congr rfl fun r1 _ => Finset.sum_congr rfl fun r2 _ => Finset.sum_congr rfl fun j _ => ?_
    rw [← smul_add, Matrix.mul_smul, smul_comm]

theorem chi_unique_iff {S : Type} [Fintype S] [DecidableEq S] (dt : F) (A : Grid L 1 (Matrix S S F)) (B C : Grid L N (Matrix S S F)) :
    (∃! x : Grid L N (Matrix S S F), ∀ r n, x r n = C r n + dt • conv2' 0 A B x r n) ↔ ∀ u : Grid L N (Matrix S S F), (∀ r n, u r n = dt • conv2' 0 A B u r n) → u = 0 := by
  have e : ∀ x : Grid L N (Matrix S S F), (∀ r n, x r n = C r n + dt • conv2' 0 A B x r n) ↔ x = C + convLin dt A B x := fun x =>
    ⟨fun h => funext fun r => funext fun n => h r n, fun h r n => congrFun (congrFun h r) n⟩
  have e' : ∀ x : Grid L N (Matrix S S F), (∀ r n, x r n = dt • conv2' 0 A B x r n) ↔ x = convLin dt A B x := fun x =>
    ⟨fun h => funext fun r => funext fun n => h r n, fun h r n => congrFun (congrFun h r) n⟩
  simp only [e, e']
  constructor
  · rintro ⟨x, hx, hu⟩ u hu'
    have := hu (x + u) (by
      simp only
      rw [map_add, ← add_assoc, ← hx, ← hu'])
    simpa using this
  · intro h
    exact fixed_unique (convLin dt A B) h C

/-- In zero field the equation of the tensor has exactly one solution if and only if the equation of the random phase approximation with exchanged factors has. -/
theorem rpa_unique_iff {dt : F} {J : Grid L 1 (Matrix (WIdx m) (WIdx m) F)} {P : Grid L N (Matrix (WIdx m) (WIdx m) F)} (hJ : SymJ J) (hP : SymP P) :
    (∃! x, DysonChi dt J P x) ↔ ∃! y, RpaExchanged dt (constants J) (bubble P) y := by
  constructor
  · rintro ⟨X, hX, hu⟩
    have h := rpa_unique hJ hP (fun x => ⟨hu x, fun e => e ▸ hX⟩)
    exact ⟨_, (h _).2 rfl, fun y hy => (h y).1 hy⟩
  · intro h
    have neg : ∀ y : Grid L N (Matrix (Fin m) (Fin m) F), RpaExchanged dt (constants J) (bubble P) y ↔ ∀ r n, y r n = bubble P r n + (-dt) • conv2' 0 (constants J) (bubble P) y r n := by
      intro y
      unfold RpaExchanged
      simp only [neg_smul, sub_eq_add_neg]
    simp only [neg] at h
    rw [chi_unique_iff] at h
    unfold DysonChi
    rw [chi_unique_iff dt J P fun r n => -P r n]
    intro u hu
    -- a row of the tensor as a matrix of the sublattices
    have row : ∀ (v : Bool × Bool → F), (∀ e, ∑ k, v k * exchange k e 1 = 2 * v (e.2, e.1)) → ∀ (q : WIdx m) r t a, ∑ k, v k * u r t (k, a) q = 0 := by
      intro v hv q r t a
      let φ : Matrix (WIdx m) (WIdx m) F →ₗ[F] Matrix (Fin m) (Fin m) F :=
        { toFun := fun X => Matrix.of fun a _ => ∑ k, v k * X (k, a) q
          map_add' := fun X Y => by
            ext a b
            simp [mul_add, Finset.sum_add_distrib]
          map_smul' := fun x X => by
            ext a b
            simp only [Matrix.of_apply, Matrix.smul_apply, smul_eq_mul, RingHom.id_apply, Finset.mul_sum]
            refine Finset.sum_congr rfl fun k _ => ?_
            ring }
      have hφ : ∀ X a b, φ X a b = ∑ k, v k * X (k, a) q := fun X a b => rfl
      have mul : ∀ r1 r2 t X, φ (J r1 0 * P r2 t * X) = -(constants J r1 0 * bubble P r2 t * φ X) := by
        intro r1 r2 t X
        ext a b
        rw [Matrix.neg_apply, Matrix.mul_apply, hφ]
        simp only [mul_bubble hP, hφ, mul_polar hP, constants, Matrix.of_apply]
        by_cases c : r2 = 0
        · simp only [if_pos c]
          have e0 : ∀ (k e : Bool × Bool) (z : Fin m), J r1 0 (k, a) (e, z) = exchange k e 1 * J r1 0 ((true, true), a) ((true, true), z) := fun k e z => by
            rw [hJ.spin r1 0 k e a z, exchange_smul]
          have e1 : ∀ k : Bool × Bool, v k * ∑ z : Fin m, P 0 t ((true, true), z) ((true, true), z) * ∑ e : Bool × Bool, J r1 0 (k, a) (e, z) * X ((e.2, e.1), z) q =
              ∑ z : Fin m, ∑ e : Bool × Bool, v k * exchange k e 1 * (P 0 t ((true, true), z) ((true, true), z) * J r1 0 ((true, true), a) ((true, true), z) * X ((e.2, e.1), z) q) := by
            intro k
            rw [Finset.mul_sum]
            refine Finset.sum_congr rfl fun z _ => ?_
            rw [Finset.mul_sum, Finset.mul_sum]
            refine Finset.sum_congr rfl fun e _ => ?_
            rw [e0]
            ring
          simp only [e1]
          rw [Finset.sum_comm, ← Finset.sum_neg_distrib]
          refine Finset.sum_congr rfl fun z _ => ?_
          rw [Finset.sum_comm]
          have e2 : ∀ e : Bool × Bool, ∑ k : Bool × Bool, v k * exchange k e 1 * (P 0 t ((true, true), z) ((true, true), z) * J r1 0 ((true, true), a) ((true, true), z) * X ((e.2, e.1), z) q) =
              2 * v (e.2, e.1) * (P 0 t ((true, true), z) ((true, true), z) * J r1 0 ((true, true), a) ((true, true), z) * X ((e.2, e.1), z) q) := by
            intro e
            rw [← Finset.sum_mul, hv]
          simp only [e2]
          rw [← Equiv.sum_comp (Equiv.prodComm Bool Bool), Finset.mul_sum, ← Finset.sum_neg_distrib]
          refine Finset.sum_congr rfl fun e _ => ?_
          simp only [Equiv.prodComm_apply, Prod.swap, Prod.mk.eta]
          ring
        · simp [c]
      have := h (fun r t => φ (u r t)) (fun r n => by
        have k := congrArg φ (hu r n)
        rw [map_smul, conv_lin φ mul, smul_neg, ← neg_smul] at k
        exact k)
      have k := congrFun (congrFun this r) t
      have k' := congrFun (congrFun k a) a
      exact k'
    -- the four components of a pair of spins
    funext r t
    ext ⟨p, a⟩ q
    change u r t (p, a) q = 0
    have z := row (fun k => if k = (true, true) then 1 else if k = (false, false) then -1 else 0) (by
      rintro ⟨e1, e2⟩
      simp only [Fintype.sum_prod_type, Fintype.sum_bool]
      cases e1 <;> cases e2 <;> simp [exchange] <;> norm_num) q
    have pm := row (fun k => if k = (true, false) then 1 else 0) (by
      rintro ⟨e1, e2⟩
      simp only [Fintype.sum_prod_type, Fintype.sum_bool]
      cases e1 <;> cases e2 <;> simp [exchange]) q
    have mp := row (fun k => if k = (false, true) then 1 else 0) (by
      rintro ⟨e1, e2⟩
      simp only [Fintype.sum_prod_type, Fintype.sum_bool]
      cases e1 <;> cases e2 <;> simp [exchange]) q
    have zero : ∀ r t a, u r t ((true, true), a) q + u r t ((false, false), a) q = 0 := by
      intro r t a
      have k := hu r t
      have k1 := congrFun (congrFun k ((true, true), a)) q
      have k2 := congrFun (congrFun k ((false, false), a)) q
      rw [k1, k2, Matrix.smul_apply, Matrix.smul_apply, ← smul_add]
      refine (congrArg _ ?_).trans (smul_zero _)
      unfold conv2'
      simp only [Matrix.sum_apply, Matrix.smul_apply, ← Finset.sum_add_distrib, ← smul_add]
      refine Finset.sum_eq_zero fun r1 _ => Finset.sum_eq_zero fun r2 _ => Finset.sum_eq_zero fun j _ => ?_
      refine (congrArg _ ?_).trans (smul_zero _)
      rw [mul_polar hP, mul_polar hP]
      split_ifs
      · rw [← Finset.sum_add_distrib]
        refine Finset.sum_eq_zero fun z _ => ?_
        rw [← mul_add, ← Finset.sum_add_distrib]
        refine (congrArg _ (Finset.sum_eq_zero fun e _ => ?_)).trans (mul_zero _)
        rw [hJ.spin r1 0 (true, true) e a z, hJ.spin r1 0 (false, false) e a z, ← add_mul]
        obtain ⟨e1, e2⟩ := e
        cases e1 <;> cases e2 <;> simp [exchange]
      · simp
    have z' := z r t a
    have pm' := pm r t a
    have mp' := mp r t a
    have zero' := zero r t a
    simp [Fintype.sum_prod_type] at z' pm' mp'
    obtain ⟨p1, p2⟩ := p
    cases p1 <;> cases p2
    · linear_combination (1 / 2 : F) * zero' - (1 / 2 : F) * z'
    · exact mp'
    · exact pm'
    · linear_combination (1 / 2 : F) * zero' + (1 / 2 : F) * z'

/-- **C79**: in zero field `W_Dyson` ends with an exception other than `DenorminatorTouchZero` exactly if the equation for the susceptibility does not have exactly one solution. -/
theorem C79_crash {κ κ0 : Kind} {E : Phase F} (hκ : κ.beta ≠ 0 ∧ κ.hasTau = true ∧ κ.sym = true) (hκ0 : κ0.beta ≠ 0 ∧ κ0.hasTau = false)
    {solve : Solver (WIdx m) F} (hs : solve.Good) {touches : Grid L N (Matrix (WIdx m) (WIdx m) F) → Bool} {W0 : Plain L 1 (Matrix (WIdx m) (WIdx m) F)} {Polar : Plain L N (Matrix (WIdx m) (WIdx m) F)}
    {J : Grid L 1 (Matrix (WIdx m) (WIdx m) F)} {P : Grid L N (Matrix (WIdx m) (WIdx m) F)} (hJ : W0.Shows κ0 E J) (hP : Polar.Shows κ E P) (sJ : SymJ J) (sP : SymP P) :
    wDyson κ κ0 E solve touches W0 Polar = .crash ↔ ¬ ∃! y, RpaExchanged ((κ.beta / N : ℚ) : F) (constants J) (bubble P) y := by
  obtain ⟨-, h2, h3⟩ := C64_W κ κ0 E hκ.1 hκ.2.1 hκ.2.2 hκ0.1 hκ0.2 solve hs touches W0 Polar J P hJ hP
  rw [h2, h3, rpa_unique_iff sJ sP]

end

section
variable {d : ℕ} {L : Fin d → ℕ} {N m : ℕ} [∀ i, NeZero (L i)] [NeZero N]

theorem merged_fft {F M : Type} [Field F] [AddCommGroup M] [Module F M] (κ : Kind) (E : Phase F) (w : Merged ℚ L N M) (ls : List Letter) : (w.fft κ E ls).toPlain = w.toPlain.fft κ E ls := by
  unfold Merged.fft Plain.fft
  simp only
  split_ifs <;> simp_all

theorem view_scale (κ : Kind) (E : Phase ℂ) (s t : Bool) (c : ℂ) {M : Type} [AddCommGroup M] [Module ℂ M] (f : Grid L N M) :
    κ.view E (fun r n => c • f r n) s t = fun r n => c • κ.view E f s t r n := by
  have e1 : ∀ f : Grid L N M, fftn E (fun r n => c • f r n) = fun r n => c • fftn E f r n := by
    intro f
    funext k n
    unfold fftn
    rw [Finset.smul_sum]
    exact Finset.sum_congr rfl fun r _ => smul_comm _ _ _
  have e2 : ∀ (σ : ℕ) (f : Grid L N M), matsubara E σ (fun r n => c • f r n) = fun r n => c • matsubara E σ f r n := by
    intro σ f
    funext k n
    unfold matsubara
    rw [Finset.smul_sum]
    exact Finset.sum_congr rfl fun r _ => smul_comm _ _ _
  unfold Kind.view
  by_cases h : (t && κ.hasTau) = true <;> cases s <;> simp [h, e1, e2]

/-- What the variables of the loop for the sum rule have to do with each other: polarisation `p`, bare interaction `J` and propagator `g`. -/
structure SumRule.Fits (κ : ScfKinds) (E : Phase ℂ) (J : Grid L 1 (Matrix (WIdx m) (WIdx m) ℂ)) (g : Grid L N (Matrix (GIdx m) (GIdx m) ℂ)) (s : SumRule L N m)
    (p x : Grid L N (Matrix (WIdx m) (WIdx m) ℂ)) : Prop where
  polar : s.polar.toPlain.Shows κ.w E p
  W : ∀ w, s.W.Shows κ.w E w ↔ DysonW ((κ.w.beta / N : ℚ) : ℂ) J p w
  chi : ∀ y, DysonChi ((κ.w.beta / N : ℚ) : ℂ) J p y ↔ y = x
  X : s.X.data = fun r t => x r t + Matrix.of fun p q => lastG g 0 (p.1.1, p.2) (p.1.2, p.2) * lastG g 0 (q.1.1, q.2) (q.1.2, q.2)
  space : s.X.space = false
  time : s.X.time = false
  value : ∀ r t a b, s.chi.data r t a b = alongZ x r t a b + magnetisation g a * magnetisation g b

theorem SumRule.make_fits {κ : ScfKinds} (hκ : κ.Good) {T : ScfTools ℂ L N m} (hs : T.solveW.Good) {W0 : Plain L 1 (Matrix (WIdx m) (WIdx m) ℂ)} {G : Plain L N (Matrix (GIdx m) (GIdx m) ℂ)}
    {J : Grid L 1 (Matrix (WIdx m) (WIdx m) ℂ)} {g : Grid L N (Matrix (GIdx m) (GIdx m) ℂ)} (hJ : W0.Shows κ.w0 T.E J) (hG : G.Shows κ.g T.E g)
    {polar : Merged ℚ L N (Matrix (WIdx m) (WIdx m) ℂ)} {p : Grid L N (Matrix (WIdx m) (WIdx m) ℂ)} (hp : polar.toPlain.Shows κ.w T.E p) {s : SumRule L N m}
    (h : SumRule.make κ T W0 G polar = .done s) : (∃ x, s.Fits κ T.E J g p x) ∧ s.polar = polar.fft κ.w T.E [.K, .W] := by
  unfold SumRule.make at h
  simp only at h
  have hq := (C63_transform κ.w T.E (bins_pos N) (axes_pos L) hκ.w.1 _ _ hp [.K, .W]).1
  rw [← merged_fft] at hq
  cases e : wDyson κ.w κ.w0 T.E T.solveW T.touchW W0 (polar.fft κ.w T.E [.K, .W]).toPlain with
  | touchZero => rw [e] at h; cases h
  | crash => rw [e] at h; cases h
  | done R =>
    obtain ⟨W, X⟩ := R
    rw [e] at h
    simp only [Outcome.done.injEq] at h
    subst h
    have hD := (C64_W κ.w κ.w0 T.E hκ.w.1 hκ.w.2.1 hκ.w.2.2 hκ.w0.1 hκ.w0.2 T.solveW hs T.touchW W0 _ J p hJ hq).1 W X e
    obtain ⟨x, sx, -⟩ := C63_faithful κ.w T.E (bins_pos N) (axes_pos L) hκ.w.1 X
    have h1 := (C63_transform κ.w T.E (bins_pos N) (axes_pos L) hκ.w.1 X x sx [.R, .T]).2
    refine ⟨⟨x, hq, hD.1, fun y => ?_, ?_, ?_, ?_, (C79_measured hκ.w.1 hκ.g.1 sx hG).2.2⟩, rfl⟩
    · rw [← hD.2]
      exact ⟨fun k => k.unique hκ.w.1 sx, fun k => k ▸ sx⟩
    · simp only [addZeroth, (shows_RT hκ.w.1 sx).1, (shows_RT hκ.g.1 hG).1]
    · change (X.fft κ.w T.E [.R, .T]).space = false
      rw [h1.1]; simp [after]
    · change (X.fft κ.w T.E [.R, .T]).time = false
      rw [h1.2]; simp [after]

variable [NeZero m]

theorem SumRule.rescale_shows {κ : ScfKinds} {E : Phase ℂ} {J : Grid L 1 (Matrix (WIdx m) (WIdx m) ℂ)} {g : Grid L N (Matrix (GIdx m) (GIdx m) ℂ)} {s : SumRule L N m}
    {p x : Grid L N (Matrix (WIdx m) (WIdx m) ℂ)} (h : s.Fits κ E J g p x) : s.rescale.toPlain.Shows κ.w E (fun r t => (3 / 4 / s.chi.data 0 0 0 0) ^ (1 / 2 : ℂ) • p r t) := by
  have e := h.polar
  unfold Plain.Shows at e ⊢
  rw [view_scale]
  unfold SumRule.rescale
  simp only
  rw [e]

/-- **C79**: if the loop for the sum rule ends, the reported local susceptibility at time 0 is `3/4` within `10⁻³`; the polarisation is the one before times a number, the interaction solves the
Dyson equation with this polarisation, and the susceptibility is that of this polarisation. The sums `Polar` is the mean of are not multiplied. -/
theorem C79_sumrule_partial {κ : ScfKinds} (hκ : κ.Good) {T : ScfTools ℂ L N m} (hs : T.solveW.Good) {W0 : Plain L 1 (Matrix (WIdx m) (WIdx m) ℂ)} {G : Plain L N (Matrix (GIdx m) (GIdx m) ℂ)}
    {J : Grid L 1 (Matrix (WIdx m) (WIdx m) ℂ)} {g : Grid L N (Matrix (GIdx m) (GIdx m) ℂ)} (hJ : W0.Shows κ.w0 T.E J) (hG : G.Shows κ.g T.E g)
    {polar : Merged ℚ L N (Matrix (WIdx m) (WIdx m) ℂ)} {p : Grid L N (Matrix (WIdx m) (WIdx m) ℂ)} (hp : polar.toPlain.Shows κ.w T.E p) {s s' : SumRule L N m}
    (h : SumRule.make κ T W0 G polar = .done s) (hl : SumRule.Loop κ T W0 G s s') :
    ‖s'.chi.data 0 0 0 0 - 3 / 4‖ ≤ 1 / 1000 ∧ s'.polar.accu = s.polar.accu ∧ s'.polar.norm = s.polar.norm ∧
      ∃ c : ℂ, s'.polar.toPlain.Shows κ.w T.E (fun r t => c • p r t) ∧ (∀ w, s'.W.Shows κ.w T.E w ↔ DysonW ((κ.w.beta / N : ℚ) : ℂ) J (fun r t => c • p r t) w) ∧
        ∃ x, (∀ y, DysonChi ((κ.w.beta / N : ℚ) : ℂ) J (fun r t => c • p r t) y ↔ y = x) ∧
          ∀ r t a b, s'.chi.data r t a b = alongZ x r t a b + magnetisation g a * magnetisation g b := by
  obtain ⟨⟨x, hf⟩, hpol⟩ := SumRule.make_fits hκ hs hJ hG hp h
  have one : (fun r t => (1 : ℂ) • p r t) = p := by simp
  rw [← one] at hf
  have hsp : s.polar.space = true ∧ s.polar.time = true := by
    have h2 := (C63_transform κ.w T.E (bins_pos N) (axes_pos L) hκ.w.1 _ _ hp [.K, .W]).2
    rw [← merged_fft, ← hpol] at h2
    rw [h2.1, h2.2]
    simp [after]
  clear h hpol one
  generalize (1 : ℂ) = c at hf
  induction hl generalizing c x with
  | stop hn => exact ⟨not_lt.1 hn, rfl, rfl, c, hf.polar, hf.W, x, hf.chi, hf.value⟩
  | @go s1 s2 s3 hfar hm hl ih =>
    obtain ⟨⟨x', hf'⟩, e⟩ := SumRule.make_fits hκ hs hJ hG (SumRule.rescale_shows hf) hm
    have e2 : s2.polar = s1.rescale := by
      rw [e]
      unfold Merged.fft
      have a1 : s1.rescale.space = true := hsp.1
      have a2 : s1.rescale.time = true := hsp.2
      simp [a1, a2]
    simp only [smul_smul] at hf'
    obtain ⟨i1, i2, i3, i4⟩ := ih x' (by rw [e2]; exact hsp) _ hf'
    refine ⟨i1, ?_, ?_, i4⟩
    · rw [i2, e2]; rfl
    · rw [i3, e2]; rfl

/-- **C79 fails** with the sum rule: the product of the magnetisations is already in the tensor when `Measure` adds it, so that it counts twice in the reported susceptibility. -/
theorem C79_refuted_twice {κ : ScfKinds} (hκ : κ.Good) {T : ScfTools ℂ L N m} (hs : T.solveW.Good) {W0 : Plain L 1 (Matrix (WIdx m) (WIdx m) ℂ)} {G : Plain L N (Matrix (GIdx m) (GIdx m) ℂ)}
    {J : Grid L 1 (Matrix (WIdx m) (WIdx m) ℂ)} {g : Grid L N (Matrix (GIdx m) (GIdx m) ℂ)} (hJ : W0.Shows κ.w0 T.E J) (hG : G.Shows κ.g T.E g)
    {polar : Merged ℚ L N (Matrix (WIdx m) (WIdx m) ℂ)} {p : Grid L N (Matrix (WIdx m) (WIdx m) ℂ)} (hp : polar.toPlain.Shows κ.w T.E p) {s : SumRule L N m}
    (h : SumRule.make κ T W0 G polar = .done s) :
    ∃ x, DysonChi ((κ.w.beta / N : ℚ) : ℂ) J p x ∧ ∀ r t a b, s.chi.data r t a b = alongZ x r t a b + magnetisation g a * magnetisation g b ∧
      (measuredChi κ.w κ.g T.E s.X G).data r t a b = alongZ x r t a b + 2 * (magnetisation g a * magnetisation g b) := by
  obtain ⟨⟨x, hf⟩, -⟩ := SumRule.make_fits hκ hs hJ hG hp h
  refine ⟨x, (hf.chi x).2 rfl, fun r t a b => ⟨hf.value r t a b, ?_⟩⟩
  have hS : s.X.Shows κ.w T.E s.X.data := by
    unfold Plain.Shows
    rw [hf.space, hf.time]
    exact (κ.w.view_false T.E _).symm
  rw [(C79_measured hκ.w.1 hκ.g.1 hS hG).2.2 r t a b, hf.X]
  simp only [alongZ, magnetisation, Matrix.of_apply, Matrix.add_apply]
  ring

theorem SumRule.make_free {κ : ScfKinds} (hκ : κ.Good) {T : ScfTools ℂ L N m} (hs : T.solveW.Good) (ht : ∀ x, T.touchW x = false) {W0 : Plain L 1 (Matrix (WIdx m) (WIdx m) ℂ)}
    {G : Plain L N (Matrix (GIdx m) (GIdx m) ℂ)} (hJ : W0.Shows κ.w0 T.E fun _ _ => 0) {polar : Merged ℚ L N (Matrix (WIdx m) (WIdx m) ℂ)} {p : Grid L N (Matrix (WIdx m) (WIdx m) ℂ)}
    (hp : polar.toPlain.Shows κ.w T.E p) : ∃ s, SumRule.make κ T W0 G polar = .done s := by
  have hq := (C63_transform κ.w T.E (bins_pos N) (axes_pos L) hκ.w.1 _ _ hp [.K, .W]).1
  rw [← merged_fft] at hq
  obtain ⟨⟨W, X⟩, e⟩ := wDyson_done hκ.w hκ.w0 hs ht hJ hq ⟨_, (dysonW_zero _ _ _).2 rfl, fun y hy => (dysonW_zero _ _ _).1 hy⟩
  unfold SumRule.make
  simp only [e]
  exact ⟨_, rfl⟩

theorem SumRule.loop_free {κ : ScfKinds} (hκ : κ.Good) {T : ScfTools ℂ L N m} (hs : T.solveW.Good) (ht : ∀ x, T.touchW x = false) {W0 : Plain L 1 (Matrix (WIdx m) (WIdx m) ℂ)}
    {G : Plain L N (Matrix (GIdx m) (GIdx m) ℂ)} (hJ : W0.Shows κ.w0 T.E fun _ _ => 0) {g : Grid L N (Matrix (GIdx m) (GIdx m) ℂ)} (hG : G.Shows κ.g T.E g) (hg : magnetisation g 0 = 0) (n : ℕ) :
    ∀ (u : ℝ) (s : SumRule L N m) (p x : Grid L N (Matrix (WIdx m) (WIdx m) ℂ)), 1 / 4 ≤ u → u ≤ 1 → 1 - u ≤ (3 / 2) ^ n / 1000 → s.Fits κ T.E (fun _ _ => 0) g p x →
      s.chi.data 0 0 0 0 = ((3 / 4 * u : ℝ) : ℂ) → ∃ s', SumRule.Loop κ T W0 G s s' := by
  have stop : ∀ (u : ℝ) (s : SumRule L N m), u ≤ 1 → 1 - u ≤ 1 / 1000 → s.chi.data 0 0 0 0 = ((3 / 4 * u : ℝ) : ℂ) → ¬ s.Far := by
    intro u s h1 h2 h3
    unfold SumRule.Far
    rw [h3, show ((3 / 4 * u : ℝ) : ℂ) - 3 / 4 = ((3 / 4 * u - 3 / 4 : ℝ) : ℂ) by push_cast; ring, Complex.norm_real, Real.norm_eq_abs, abs_of_nonpos (by linarith)]
    linarith
  induction n with
  | zero =>
    intro u s p x _ h1 h2 _ h3
    exact ⟨s, .stop (stop u s h1 (by simpa using h2) h3)⟩
  | succ n ih =>
    intro u s p x h0 h1 h2 hf h3
    by_cases hn : s.Far
    · have hu : 0 < u := by linarith
      have hr := SumRule.rescale_shows hf
      obtain ⟨s2, e2⟩ := SumRule.make_free (G := G) hκ hs ht hJ hr
      obtain ⟨⟨x2, hf2⟩, -⟩ := SumRule.make_fits hκ hs hJ hG hr e2
      have k1 : x = fun r t => -p r t := ((hf.chi _).1 ((dysonChi_zero _ _ _).2 rfl)).symm
      have k2 : x2 = fun r t => -((3 / 4 / s.chi.data 0 0 0 0) ^ (1 / 2 : ℂ) • p r t) := ((hf2.chi _).1 ((dysonChi_zero _ _ _).2 rfl)).symm
      have v1 := hf.value 0 0 0 0
      have v2 := hf2.value 0 0 0 0
      rw [hg, mul_zero, add_zero] at v1 v2
      have ratio : (3 / 4 / s.chi.data 0 0 0 0) ^ (1 / 2 : ℂ) = (((Real.sqrt u)⁻¹ : ℝ) : ℂ) := by
        rw [h3, show (3 / 4 : ℂ) / ((3 / 4 * u : ℝ) : ℂ) = ((u⁻¹ : ℝ) : ℂ) by
          have : (u : ℂ) ≠ 0 := by exact_mod_cast hu.ne'
          push_cast
          field_simp]
        rw [show (1 / 2 : ℂ) = ((1 / 2 : ℝ) : ℂ) by push_cast; ring, ← Complex.ofReal_cpow (inv_nonneg.2 hu.le), ← Real.sqrt_eq_rpow, Real.sqrt_inv]
      have v3 : s2.chi.data 0 0 0 0 = ((3 / 4 * Real.sqrt u : ℝ) : ℂ) := by
        have lin : alongZ x2 0 0 0 0 = (((Real.sqrt u)⁻¹ : ℝ) : ℂ) * alongZ x 0 0 0 0 := by
          rw [k1, k2, ratio]
          simp only [alongZ, Matrix.of_apply, Matrix.neg_apply, Matrix.smul_apply, smul_eq_mul]
          ring
        rw [v2, lin, ← v1, h3, ← Complex.ofReal_mul]
        congr 1
        have hq := Real.sq_sqrt hu.le
        have hp := Real.sqrt_pos.2 hu
        field_simp
        linarith
      have hq := Real.sq_sqrt hu.le
      have hp := Real.sqrt_pos.2 hu
      have b0 : 1 / 2 ≤ Real.sqrt u := by
        rw [show (1 / 2 : ℝ) = Real.sqrt (1 / 4) by rw [show (1 / 4 : ℝ) = (1 / 2) ^ 2 by norm_num, Real.sqrt_sq (by norm_num)]]
        exact Real.sqrt_le_sqrt h0
      have b1 : Real.sqrt u ≤ 1 := by
        rw [show (1 : ℝ) = Real.sqrt 1 by simp]
        exact Real.sqrt_le_sqrt h1
      obtain ⟨s', l⟩ := ih (Real.sqrt u) s2 _ x2 (by linarith) b1 (by
        rw [pow_succ] at h2
        nlinarith) hf2 v3
      exact ⟨s', .go hn e2 l⟩
    · exact ⟨s, .stop hn⟩

/-- **C79 fails** with the sum rule: for free spins without field, whose susceptibility is exactly `1/4`, the loop ends and the value it leaves is `3/4` within `10⁻³`. The sum rule is that of
the sum of the three components, the susceptibility only has one. -/
theorem C79_refuted_sumrule {κ : ScfKinds} (hκ : κ.Good) {T : ScfTools ℂ L N m} (hs : T.solveW.Good) (ht : ∀ x, T.touchW x = false) {W0 : Plain L 1 (Matrix (WIdx m) (WIdx m) ℂ)}
    {G : Plain L N (Matrix (GIdx m) (GIdx m) ℂ)} (hJ : W0.Shows κ.w0 T.E fun _ _ => 0) {beta : ℝ} (hb : beta ≠ 0) (delta external : Fin m → ℝ) (h0 : ∀ a, delta a + external a = 0)
    {ι : (∀ i, Fin (L i)) → ℕ} (hι : ∀ r, ι r = 0 ↔ r = 0) (hG : G.Shows κ.g T.E (freeG L N beta delta external ι)) {polar : Merged ℚ L N (Matrix (WIdx m) (WIdx m) ℂ)}
    (hp : polar.toPlain.Shows κ.w T.E (polarFirst (freeG L N beta delta external ι))) :
    ∃ s s', SumRule.make κ T W0 G polar = .done s ∧ SumRule.Loop κ T W0 G s s' ∧ s.chi.data 0 0 0 0 = 1 / 4 ∧ ‖s'.chi.data 0 0 0 0 - 3 / 4‖ ≤ 1 / 1000 := by
  obtain ⟨s, e⟩ := SumRule.make_free (G := G) hκ hs ht hJ hp
  obtain ⟨⟨x, hf⟩, -⟩ := SumRule.make_fits hκ hs hJ hG hp e
  have hm : magnetisation (freeG L N beta delta external ι) 0 = 0 := magnetisation_zero (C77_bareG hb delta external h0 ι hι) 0
  have k1 : x = fun r t => -polarFirst (freeG L N beta delta external ι) r t := ((hf.chi _).1 ((dysonChi_zero _ _ _).2 rfl)).symm
  have v1 := hf.value 0 0 0 0
  rw [hm, mul_zero, add_zero, k1, free_polar hb delta external hι, if_pos ⟨rfl, rfl⟩, h0] at v1
  have v2 : s.chi.data 0 0 0 0 = 1 / 4 := by
    rw [v1]
    simp
  obtain ⟨s', l⟩ := SumRule.loop_free hκ hs ht hJ hG hm 20 (1 / 3) s _ x (by norm_num) (by norm_num) (by norm_num) hf (by rw [v2]; push_cast; norm_num)
  exact ⟨s, s', e, l, v2, (C79_sumrule_partial hκ hs hJ hG hp e l).1⟩
end

/-- A polarisation of two different sublattices. -/
noncomputable def unevenP : Grid (fun _ : Fin 1 => 1) 2 (Matrix (WIdx 2) (WIdx 2) ℂ) := fun _ _ => Matrix.of fun p q => if p.2 = q.2 ∧ q.1 = (p.1.2, p.1.1) then (if p.2 = 0 then -(1 / 2) else -1) else 0

/-- Exchange between them. -/
noncomputable def unevenJ : Grid (fun _ : Fin 1 => 1) 1 (Matrix (WIdx 2) (WIdx 2) ℂ) := fun _ _ => Matrix.of fun p q => if p.2 = q.2 then 0 else exchange p.1 q.1 (1 / 8)

/-- What `W_Dyson` makes of them. -/
noncomputable def unevenX : Grid (fun _ : Fin 1 => 1) 2 (Matrix (Fin 2) (Fin 2) ℂ) := fun _ _ => !![2 / 7, -(2 / 7); -(1 / 14), 4 / 7]

theorem unevenP_sym : SymP unevenP := by
  refine ⟨fun r t p q a b h => ?_, fun r t p q a => ?_, fun r t p q => ?_, fun _ _ _ _ => rfl⟩
  · simp only [unevenP, Matrix.of_apply]
    rw [if_neg]
    rintro ⟨rfl, rfl⟩
    rcases h with h | h | h
    · exact h (Subsingleton.elim _ _)
    · exact h rfl
    · exact h rfl
  · simp [unevenP]
  · simp only [unevenP, Matrix.of_apply]
    split_ifs <;> simp

theorem unevenJ_sym : SymJ unevenJ := by
  refine ⟨fun r t p q a b => ?_, fun r t p q => ?_, fun t p q a => ?_⟩
  · simp only [unevenJ, Matrix.of_apply]
    split_ifs
    · unfold exchange
      split_ifs <;> simp
    · simp [exchange]
  · simp only [unevenJ, Matrix.of_apply, exchange]
    split_ifs <;> simp
  · simp [unevenJ]

theorem uneven_rpa (x : Grid (fun _ : Fin 1 => 1) 2 (Matrix (Fin 2) (Fin 2) ℂ)) : RpaExchanged ((twoKinds.w.beta / (2 : ℕ) : ℚ) : ℂ) (constants unevenJ) (bubble unevenP) x ↔ x = unevenX := by
  have sub : ∀ r : Fin 1 → Fin 1, ((r - fun _ => 0) - fun _ => 0) = r := fun r => Subsingleton.elim _ _
  unfold RpaExchanged conv2'
  rw [funext_iff]
  refine forall_congr' fun r => ?_
  rw [funext_iff]
  simp [twoKinds, cont, Fin.forall_fin_two, unevenP, unevenJ, unevenX, constants, bubble, exchange, ← Matrix.ext_iff, Matrix.mul_apply, sub]
  constructor
  · rintro ⟨⟨⟨a1, a2⟩, a3, a4⟩, ⟨b1, b2⟩, b3, b4⟩
    have s00 : x r 0 0 0 + x r 1 0 0 = 4 / 7 := by linear_combination 8 / 7 * (a1 + b1) - 4 / 7 * (a3 + b3)
    have s10 : x r 0 1 0 + x r 1 1 0 = -(1 / 7) := by linear_combination (a3 + b3) - 1 / 4 * s00
    have s11 : x r 0 1 1 + x r 1 1 1 = 8 / 7 := by linear_combination 8 / 7 * (a4 + b4) - 2 / 7 * (a2 + b2)
    have s01 : x r 0 0 1 + x r 1 0 1 = -(4 / 7) := by linear_combination (a2 + b2) - 1 / 2 * s11
    refine ⟨⟨⟨?_, ?_⟩, ?_, ?_⟩, ⟨?_, ?_⟩, ?_, ?_⟩
    · linear_combination a1 - 1 / 4 * s10
    · linear_combination a2 - 1 / 4 * s11
    · linear_combination a3 - 1 / 8 * s00
    · linear_combination a4 - 1 / 8 * s01
    · linear_combination b1 - 1 / 4 * s10
    · linear_combination b2 - 1 / 4 * s11
    · linear_combination b3 - 1 / 8 * s00
    · linear_combination b4 - 1 / 8 * s01
  · rintro ⟨⟨⟨a1, a2⟩, a3, a4⟩, ⟨b1, b2⟩, b3, b4⟩
    rw [a1, a2, a3, a4, b1, b2, b3, b4]
    norm_num

theorem zero_symG {d : ℕ} {L : Fin d → ℕ} {N m : ℕ} [∀ i, NeZero (L i)] : SymG (fun _ _ => 0 : Grid L N (Matrix (GIdx m) (GIdx m) ℂ)) := ⟨fun _ _ _ _ _ => rfl, fun _ _ _ _ _ => rfl, fun _ _ _ _ => by simp⟩

/-- **C79 fails** for sublattices with different polarisations: `W_Dyson` returns, but the susceptibility does not solve the equation of the random phase approximation. It is not even symmetric: the
response of one sublattice to a field on the other differs from the response of the other to a field on the one. -/
theorem C79_refuted_order : ∃ W X, wDyson twoKinds.w twoKinds.w0 Phase.complex (inverter (WIdx 2) ℂ) (fun _ => false) ⟨unevenJ, false, false⟩ ⟨unevenP, false, false⟩ = .done (W, X) ∧
    let χ := (measuredChi twoKinds.w twoKinds.g Phase.complex X ⟨fun _ _ => 0, false, false⟩).data
    ¬ Rpa ((twoKinds.w.beta / (2 : ℕ) : ℚ) : ℂ) (constants unevenJ) (bubble unevenP) χ ∧ ∀ r t, χ r t 0 1 ≠ χ r t 1 0 := by
  have k1 : (⟨unevenJ, false, false⟩ : Plain (fun _ : Fin 1 => 1) 1 (Matrix (WIdx 2) (WIdx 2) ℂ)).Shows twoKinds.w0 Phase.complex unevenJ := (Kind.view_false _ _ _).symm
  have k2 : (⟨unevenP, false, false⟩ : Plain (fun _ : Fin 1 => 1) 2 (Matrix (WIdx 2) (WIdx 2) ℂ)).Shows twoKinds.w Phase.complex unevenP := (Kind.view_false _ _ _).symm
  have k3 : (⟨fun _ _ => 0, false, false⟩ : Plain (fun _ : Fin 1 => 1) 2 (Matrix (GIdx 2) (GIdx 2) ℂ)).Shows twoKinds.g Phase.complex (fun _ _ => 0) := (Kind.view_false _ _ _).symm
  have hu : ∃! y, RpaExchanged ((twoKinds.w.beta / (2 : ℕ) : ℚ) : ℂ) (constants unevenJ) (bubble unevenP) y := ⟨unevenX, (uneven_rpa _).2 rfl, fun y h => (uneven_rpa y).1 h⟩
  rw [← rpa_unique_iff unevenJ_sym unevenP_sym] at hu
  have h3 := (C64_W twoKinds.w twoKinds.w0 Phase.complex twoKinds_good.w.1 twoKinds_good.w.2.1 twoKinds_good.w.2.2 twoKinds_good.w0.1 twoKinds_good.w0.2 (inverter (WIdx 2) ℂ) inverter_good
    (fun _ => false) _ _ _ _ k1 k2).2.2
  obtain ⟨⟨W, X⟩, e⟩ := wDyson_done twoKinds_good.w twoKinds_good.w0 (inverter_good (S := WIdx 2) (F := ℂ)) (touches := fun _ => false) (fun _ => rfl) k1 k2 (h3.2 hu)
  refine ⟨W, X, e, ?_⟩
  have hx := ((C79_rpa_partial twoKinds_good.w twoKinds_good.w0 twoKinds_good.g.1 inverter_good k1 k2 k3 unevenJ_sym unevenP_sym zero_symG e).1 _).1 ((uneven_rpa _).2 rfl)
  intro χ
  have hχ : χ = unevenX := hx
  rw [hχ]
  refine ⟨fun h => ?_, fun r t => ?_⟩
  · have sub : ∀ r : Fin 1 → Fin 1, ((r - fun _ => 0) - fun _ => 0) = r := fun r => Subsingleton.elim _ _
    have k := congrFun (congrFun (h 0 0) 0) 1
    unfold conv2 at k
    simp [twoKinds, cont, unevenP, unevenJ, unevenX, constants, bubble, exchange, Matrix.mul_apply] at k
    norm_num [Matrix.ofNat_apply] at k
  · simp [unevenX]
    norm_num

/-- Two equal sublattices with exchange between them. -/
noncomputable def evenP : Grid (fun _ : Fin 1 => 1) 2 (Matrix (WIdx 2) (WIdx 2) ℂ) := fun _ _ => Matrix.of fun p q => if p.2 = q.2 ∧ q.1 = (p.1.2, p.1.1) then -(1 / 2) else 0

theorem evenP_sym : SymP evenP := by
  refine ⟨fun r t p q a b h => ?_, fun r t p q a => ?_, fun r t p q => ?_, fun _ _ _ _ => rfl⟩
  · simp only [evenP, Matrix.of_apply]
    rw [if_neg]
    rintro ⟨rfl, rfl⟩
    rcases h with h | h | h
    · exact h (Subsingleton.elim _ _)
    · exact h rfl
    · exact h rfl
  · simp [evenP]
  · simp only [evenP, Matrix.of_apply]
    split_ifs <;> simp

theorem even_rpa (x : Grid (fun _ : Fin 1 => 1) 2 (Matrix (Fin 2) (Fin 2) ℂ)) :
    RpaExchanged ((twoKinds.w.beta / (2 : ℕ) : ℚ) : ℂ) (constants unevenJ) (bubble evenP) x ↔ x = fun _ _ => !![4 / 15, -(1 / 15); -(1 / 15), 4 / 15] := by
  have sub : ∀ r : Fin 1 → Fin 1, ((r - fun _ => 0) - fun _ => 0) = r := fun r => Subsingleton.elim _ _
  unfold RpaExchanged conv2'
  rw [funext_iff]
  refine forall_congr' fun r => ?_
  rw [funext_iff]
  simp [twoKinds, cont, Fin.forall_fin_two, evenP, unevenJ, constants, bubble, exchange, ← Matrix.ext_iff, Matrix.mul_apply, sub]
  constructor
  · rintro ⟨⟨⟨a1, a2⟩, a3, a4⟩, ⟨b1, b2⟩, b3, b4⟩
    have s00 : x r 0 0 0 + x r 1 0 0 = 8 / 15 := by linear_combination 16 / 15 * (a1 + b1) - 4 / 15 * (a3 + b3)
    have s10 : x r 0 1 0 + x r 1 1 0 = -(2 / 15) := by linear_combination (a3 + b3) - 1 / 4 * s00
    have s11 : x r 0 1 1 + x r 1 1 1 = 8 / 15 := by linear_combination 16 / 15 * (a4 + b4) - 4 / 15 * (a2 + b2)
    have s01 : x r 0 0 1 + x r 1 0 1 = -(2 / 15) := by linear_combination (a2 + b2) - 1 / 4 * s11
    refine ⟨⟨⟨?_, ?_⟩, ?_, ?_⟩, ⟨?_, ?_⟩, ?_, ?_⟩
    · linear_combination a1 - 1 / 8 * s10
    · linear_combination a2 - 1 / 8 * s11
    · linear_combination a3 - 1 / 8 * s00
    · linear_combination a4 - 1 / 8 * s01
    · linear_combination b1 - 1 / 8 * s10
    · linear_combination b2 - 1 / 8 * s11
    · linear_combination b3 - 1 / 8 * s00
    · linear_combination b4 - 1 / 8 * s01
  · rintro ⟨⟨⟨a1, a2⟩, a3, a4⟩, ⟨b1, b2⟩, b3, b4⟩
    rw [a1, a2, a3, a4, b1, b2, b3, b4]
    norm_num

/-- `C79_crash` and `C79_rpa_partial` for them: the spins of the two sublattices are anticorrelated. -/
example : ∃ W X, wDyson twoKinds.w twoKinds.w0 Phase.complex (inverter (WIdx 2) ℂ) (fun _ => false) ⟨unevenJ, false, false⟩ ⟨evenP, false, false⟩ = .done (W, X) ∧
    (∀ y, Rpa ((twoKinds.w.beta / (2 : ℕ) : ℚ) : ℂ) (constants unevenJ) (bubble evenP) y ↔
      (measuredChi twoKinds.w twoKinds.g Phase.complex X ⟨fun _ _ => 0, false, false⟩).data = y) ∧
    (measuredChi twoKinds.w twoKinds.g Phase.complex X ⟨fun _ _ => 0, false, false⟩).data = fun _ _ => !![4 / 15, -(1 / 15); -(1 / 15), 4 / 15] := by
  have k1 : (⟨unevenJ, false, false⟩ : Plain (fun _ : Fin 1 => 1) 1 (Matrix (WIdx 2) (WIdx 2) ℂ)).Shows twoKinds.w0 Phase.complex unevenJ := (Kind.view_false _ _ _).symm
  have k2 : (⟨evenP, false, false⟩ : Plain (fun _ : Fin 1 => 1) 2 (Matrix (WIdx 2) (WIdx 2) ℂ)).Shows twoKinds.w Phase.complex evenP := (Kind.view_false _ _ _).symm
  have k3 : (⟨fun _ _ => 0, false, false⟩ : Plain (fun _ : Fin 1 => 1) 2 (Matrix (GIdx 2) (GIdx 2) ℂ)).Shows twoKinds.g Phase.complex (fun _ _ => 0) := (Kind.view_false _ _ _).symm
  have hu : ∃! y, RpaExchanged ((twoKinds.w.beta / (2 : ℕ) : ℚ) : ℂ) (constants unevenJ) (bubble evenP) y := ⟨_, (even_rpa _).2 rfl, fun y h => (even_rpa y).1 h⟩
  rw [← rpa_unique_iff unevenJ_sym evenP_sym] at hu
  have h3 := (C64_W twoKinds.w twoKinds.w0 Phase.complex twoKinds_good.w.1 twoKinds_good.w.2.1 twoKinds_good.w.2.2 twoKinds_good.w0.1 twoKinds_good.w0.2 (inverter (WIdx 2) ℂ) inverter_good
    (fun _ => false) _ _ _ _ k1 k2).2.2
  obtain ⟨⟨W, X⟩, e⟩ := wDyson_done twoKinds_good.w twoKinds_good.w0 (inverter_good (S := WIdx 2) (F := ℂ)) (touches := fun _ => false) (fun _ => rfl) k1 k2 (h3.2 hu)
  have h := C79_rpa_partial twoKinds_good.w twoKinds_good.w0 twoKinds_good.g.1 inverter_good k1 k2 k3 unevenJ_sym evenP_sym zero_symG e
  refine ⟨W, X, e, h.2 (fun t a b => by simp [evenP]), (h.1 _).1 ((even_rpa _).2 rfl)⟩

/-- `C79_free` for one spin in a field. -/
example : ∃ W X, wDyson twoKinds.w twoKinds.w0 Phase.complex (inverter (WIdx 1) ℂ) (fun _ => false) ⟨fun _ _ => 0, false, false⟩
      ⟨polarFirst (freeG (fun _ : Fin 1 => 1) 2 2 ![1] ![0] fun _ => 0), false, false⟩ = .done (W, X) ∧
    ∀ r t a b, (measuredChi twoKinds.w twoKinds.g Phase.complex X ⟨freeG (fun _ : Fin 1 => 1) 2 2 ![1] ![0] fun _ => 0, false, false⟩).data r t a b =
      (if r = 0 ∧ a = b then 1 / (4 * Complex.cosh ((2 : ℝ) * (((![1] : Fin 1 → ℝ) a + (![0] : Fin 1 → ℝ) a : ℝ) : ℂ) / 2) ^ 2) else 0) +
        (measureSz 2 fun s => spinBareG false 2 2 ![1] ![0] s a s a 0) * measureSz 2 fun s => spinBareG false 2 2 ![1] ![0] s b s b 0 :=
  C79_free twoKinds_good.w twoKinds_good.w0 twoKinds_good.g.1 inverter_good (fun _ => rfl) two_ne_zero le_rfl ![1] ![0] (fun r => by simp [Subsingleton.elim r 0])
    (Kind.view_false _ _ _).symm (Kind.view_false _ _ _).symm (Kind.view_false _ _ _).symm

/-- `C79_refuted_sumrule`, and with it `C79_sumrule_partial`, for one spin. -/
example : ∃ s s', SumRule.make twoKinds oneTools ⟨fun _ _ => 0, false, false⟩ ⟨freeG (fun _ : Fin 1 => 1) 2 2 ![0] ![0] fun _ => 0, false, false⟩
      ⟨⟨polarFirst (freeG (fun _ : Fin 1 => 1) 2 2 ![0] ![0] fun _ => 0), false, false⟩, none, none, none⟩ = .done s ∧
    SumRule.Loop twoKinds oneTools ⟨fun _ _ => 0, false, false⟩ ⟨freeG (fun _ : Fin 1 => 1) 2 2 ![0] ![0] fun _ => 0, false, false⟩ s s' ∧
    s.chi.data 0 0 0 0 = 1 / 4 ∧ ‖s'.chi.data 0 0 0 0 - 3 / 4‖ ≤ 1 / 1000 :=
  C79_refuted_sumrule twoKinds_good (T := oneTools) inverter_good (fun _ => rfl) (W0 := ⟨fun _ _ => 0, false, false⟩)
    (G := ⟨freeG (fun _ : Fin 1 => 1) 2 2 ![0] ![0] fun _ => 0, false, false⟩) (polar := ⟨⟨polarFirst (freeG (fun _ : Fin 1 => 1) 2 2 ![0] ![0] fun _ => 0), false, false⟩, none, none, none⟩)
    (Kind.view_false _ _ _).symm two_ne_zero ![0] ![0] (fun a => by simp [Subsingleton.elim a 0])
    (fun r => by simp [Subsingleton.elim r 0]) (Kind.view_false _ _ _).symm (Kind.view_false _ _ _).symm

/-- A propagator with a magnetisation, and what `C79_refuted_twice` says about it: without polarisation the correlation is `1/4`, the reported one `1/2`. -/
noncomputable def tiltedG : Grid (fun _ : Fin 1 => 1) 2 (Matrix (GIdx 1) (GIdx 1) ℂ) := fun _ _ => Matrix.of fun p q => if p = q ∧ p.1 = false then 1 else 0

example : ∃ s, SumRule.make twoKinds oneTools ⟨fun _ _ => 0, false, false⟩ ⟨tiltedG, false, false⟩ ⟨⟨fun _ _ => 0, false, false⟩, none, none, none⟩ = .done s ∧
    s.chi.data 0 0 0 0 = 1 / 4 ∧ (measuredChi twoKinds.w twoKinds.g oneTools.E s.X ⟨tiltedG, false, false⟩).data 0 0 0 0 = 1 / 2 := by
  have k1 : (⟨fun _ _ => 0, false, false⟩ : Plain (fun _ : Fin 1 => 1) 1 (Matrix (WIdx 1) (WIdx 1) ℂ)).Shows twoKinds.w0 oneTools.E (fun _ _ => 0) := (Kind.view_false _ _ _).symm
  have k2 : (⟨tiltedG, false, false⟩ : Plain (fun _ : Fin 1 => 1) 2 (Matrix (GIdx 1) (GIdx 1) ℂ)).Shows twoKinds.g oneTools.E tiltedG := (Kind.view_false _ _ _).symm
  have k3 : (⟨fun _ _ => 0, false, false⟩ : Plain (fun _ : Fin 1 => 1) 2 (Matrix (WIdx 1) (WIdx 1) ℂ)).Shows twoKinds.w oneTools.E (fun _ _ => 0) := (Kind.view_false _ _ _).symm
  obtain ⟨s, e⟩ := SumRule.make_free twoKinds_good (T := oneTools) inverter_good (fun _ => rfl) (G := ⟨tiltedG, false, false⟩) k1 (polar := ⟨⟨fun _ _ => 0, false, false⟩, none, none, none⟩) k3
  obtain ⟨x, hx, h⟩ := C79_refuted_twice twoKinds_good (T := oneTools) inverter_good k1 k2 k3 e
  have hm : magnetisation tiltedG 0 = 1 / 2 := by
    simp [magnetisation, lastG, binAt, tiltedG]
    norm_num
  rw [dysonChi_zero] at hx
  refine ⟨s, e, ?_, ?_⟩
  · rw [(h 0 0 0 0).1, hm, hx]
    simp [alongZ]
    norm_num
  · rw [(h 0 0 0 0).2, hm, hx]
    simp [alongZ]

end Feyn
