import Verif.Spec.Ladder
import Verif.Props.Chi
import Verif.Props.Vertex

/-!
# The susceptibility from the three-point function (C93)
-/

namespace Feyn

set_option linter.unusedSectionVars false

section
variable {F : Type} [Field F] [CharZero F] [StarRing F] {d : ℕ} {L : Fin d → ℕ} {N m : ℕ} [∀ i, NeZero (L i)] [NeZero N]

/-- A polarisation that depends only on whether both pairs of spins are equal. -/
structure Pairs (A B : Grid L N (Matrix (Fin m) (Fin m) F)) (P : Grid L N (Matrix (WIdx m) (WIdx m) F)) : Prop where
  value : ∀ r t p q a b, P r t (p, a) (q, b) = if p.1 = p.2 ∧ q.1 = q.2 then (if p = q then A r t a b else B r t a b) else 0

/-- Sign of a pair of spins. -/
def pairSign (p : Bool × Bool) : F := if p = (true, true) then 1 else if p = (false, false) then -1 else 0

/-- Response without the interactions. -/
def pairResponse (A B : Grid L N (Matrix (Fin m) (Fin m) F)) : Grid L N (Matrix (Fin m) (Fin m) F) := fun r t => -(1 / 2 : F) • (A r t - B r t)

/-- The difference of two rows of a tensor. -/
def rowLin (q : WIdx m) : Matrix (WIdx m) (WIdx m) F →ₗ[F] Matrix (Fin m) (Fin m) F where
  toFun X := Matrix.of fun a _ => X ((true, true), a) q - X ((false, false), a) q
  map_add' X Y := by
    ext a b
    simp
    ring
  map_smul' x X := by
    ext a b
    simp
    ring

theorem rowLin_apply (q : WIdx m) (X : Matrix (WIdx m) (WIdx m) F) (a b : Fin m) : rowLin q X a b = X ((true, true), a) q - X ((false, false), a) q := rfl

theorem pairs_mul {J : Grid L 1 (Matrix (WIdx m) (WIdx m) F)} {A B : Grid L N (Matrix (Fin m) (Fin m) F)} {P : Grid L N (Matrix (WIdx m) (WIdx m) F)} (hJ : SpinExchange J) (hP : Pairs A B P)
    (r1 r2 : ∀ i, Fin (L i)) (t : Fin N) (X : Matrix (WIdx m) (WIdx m) F) (p : Bool × Bool) (a : Fin m) (q : WIdx m) :
    (J r1 0 * P r2 t * X) (p, a) q = -(1 / 2) * pairSign p * (constants J r1 0 * pairResponse A B r2 t * rowLin q X) a a := by
  have e1 : ∀ (e : Bool × Bool) (z : Fin m), (J r1 0 * P r2 t) (p, a) (e, z) = pairSign p * pairSign e * ∑ y : Fin m, J r1 0 ((true, true), a) ((true, true), y) * (A r2 t y z - B r2 t y z) := by
    intro e z
    rw [Matrix.mul_apply, Fintype.sum_prod_type]
    simp only [Fintype.sum_prod_type, Fintype.sum_bool, hP.value, ← Finset.sum_add_distrib]
    rw [Finset.mul_sum]
    refine Finset.sum_congr rfl fun y _ => ?_
    rw [hJ r1 0 p (true, true) a y, hJ r1 0 p (true, false) a y, hJ r1 0 p (false, true) a y, hJ r1 0 p (false, false) a y]
    obtain ⟨p1, p2⟩ := p
    obtain ⟨e1, e2⟩ := e
    cases p1 <;> cases p2 <;> cases e1 <;> cases e2 <;> simp [exchange, pairSign] <;> ring
  rw [Matrix.mul_apply, Fintype.sum_prod_type, Matrix.mul_apply]
  simp only [e1, Fintype.sum_prod_type, Fintype.sum_bool, ← Finset.sum_add_distrib]
  rw [Finset.mul_sum]
  refine Finset.sum_congr rfl fun z _ => ?_
  rw [Matrix.mul_apply]
  have e2 : ∑ y : Fin m, constants J r1 0 a y * pairResponse A B r2 t y z = -2 * ∑ y : Fin m, J r1 0 ((true, true), a) ((true, true), y) * (A r2 t y z - B r2 t y z) := by
    rw [Finset.mul_sum]
    refine Finset.sum_congr rfl fun y _ => ?_
    simp only [constants, pairResponse, Matrix.of_apply, Matrix.smul_apply, Matrix.sub_apply, smul_eq_mul]
    ring
  rw [e2, rowLin_apply]
  simp only [pairSign]
  rw [if_neg (show ¬ ((true, false) : Bool × Bool) = (true, true) by decide), if_neg (show ¬ ((true, false) : Bool × Bool) = (false, false) by decide),
    if_neg (show ¬ ((false, true) : Bool × Bool) = (true, true) by decide), if_neg (show ¬ ((false, true) : Bool × Bool) = (false, false) by decide),
    if_neg (show ¬ ((false, false) : Bool × Bool) = (true, true) by decide), if_pos trivial, if_pos trivial]
  ring

/-- Contraction of a product of interaction, polarisation and susceptibility. -/
theorem pairs_contract {J : Grid L 1 (Matrix (WIdx m) (WIdx m) F)} {A B : Grid L N (Matrix (Fin m) (Fin m) F)} {P : Grid L N (Matrix (WIdx m) (WIdx m) F)} (hJ : SpinExchange J) (hP : Pairs A B P)
    (r1 r2 : ∀ i, Fin (L i)) (t : Fin N) (X : Matrix (WIdx m) (WIdx m) F) : contract szsz (J r1 0 * P r2 t * X) = -(constants J r1 0 * pairResponse A B r2 t * contract szsz X) := by
  ext a b
  have e : ∀ Y : Matrix (WIdx m) (WIdx m) F, contract szsz Y a b = (Y ((true, true), a) ((true, true), b) - Y ((true, true), a) ((false, false), b) - Y ((false, false), a) ((true, true), b) + Y ((false, false), a) ((false, false), b)) / 4 := by
    intro Y
    simp only [contract, Matrix.of_apply, Fintype.sum_prod_type, Fintype.sum_bool]
    simp [szsz]
    ring
  rw [e, Matrix.neg_apply]
  simp only [pairs_mul hJ hP]
  rw [Matrix.mul_apply, Matrix.mul_apply, Matrix.mul_apply]
  simp only [rowLin_apply]
  have e' : ∀ z, contract szsz X z b = (X ((true, true), z) ((true, true), b) - X ((true, true), z) ((false, false), b) - X ((false, false), z) ((true, true), b) + X ((false, false), z) ((false, false), b)) / 4 := by
    intro z
    simp only [contract, Matrix.of_apply, Fintype.sum_prod_type, Fintype.sum_bool]
    simp [szsz]
    ring
  simp only [e', pairSign, if_true]
  rw [if_neg (by decide)]
  rw [Finset.mul_sum, Finset.mul_sum, Finset.mul_sum, Finset.mul_sum, ← Finset.sum_sub_distrib, ← Finset.sum_sub_distrib, ← Finset.sum_add_distrib, Finset.sum_div, ← Finset.sum_neg_distrib]
  refine Finset.sum_congr rfl fun z _ => ?_
  ring

theorem pairs_polar {A B : Grid L N (Matrix (Fin m) (Fin m) F)} {P : Grid L N (Matrix (WIdx m) (WIdx m) F)} (hP : Pairs A B P) (r : ∀ i, Fin (L i)) (t : Fin N) :
    contract szsz (P r t) = -pairResponse A B r t := by
  ext a b
  simp only [contract, Matrix.of_apply, Fintype.sum_prod_type, Fintype.sum_bool, hP.value, pairResponse, Matrix.neg_apply, Matrix.smul_apply, Matrix.sub_apply, smul_eq_mul]
  simp [szsz]
  ring

theorem pairs_lift {J : Grid L 1 (Matrix (WIdx m) (WIdx m) F)} {A B : Grid L N (Matrix (Fin m) (Fin m) F)} {P : Grid L N (Matrix (WIdx m) (WIdx m) F)} (hJ : SpinExchange J) (hP : Pairs A B P)
    (r1 r2 : ∀ i, Fin (L i)) (t : Fin N) (y : Matrix (Fin m) (Fin m) F) : liftLin (constants J r1 0 * pairResponse A B r2 t * y) = -(J r1 0 * P r2 t * liftLin y) := by
  ext ⟨p, a⟩ ⟨q, b⟩
  rw [liftLin_apply, Matrix.neg_apply, pairs_mul hJ hP, Matrix.mul_apply, Matrix.mul_apply]
  simp only [rowLin_apply, liftLin_apply]
  rw [Finset.mul_sum, Finset.mul_sum, ← Finset.sum_neg_distrib]
  refine Finset.sum_congr rfl fun z _ => ?_
  obtain ⟨p1, p2⟩ := p
  obtain ⟨q1, q2⟩ := q
  cases p1 <;> cases p2 <;> cases q1 <;> cases q2 <;> simp [szsz, pairSign] <;> ring

section
variable {dt : F} {J : Grid L 1 (Matrix (WIdx m) (WIdx m) F)} {A B : Grid L N (Matrix (Fin m) (Fin m) F)} {P : Grid L N (Matrix (WIdx m) (WIdx m) F)}

theorem pairs_dyson (hJ : SpinExchange J) (hP : Pairs A B P) {X : Grid L N (Matrix (WIdx m) (WIdx m) F)} (h : DysonChi dt J P X) :
    RpaExchanged dt (constants J) (pairResponse A B) (contractChi szsz X) := by
  intro r n
  have key := congrArg (contractLin szsz) (h r n)
  rw [map_add, map_neg, map_smul, contractLin_apply, contractLin_apply, pairs_polar hP, neg_neg, conv_lin (contractLin szsz) (pairs_contract hJ hP)] at key
  rw [contractChi_eq, key, sub_eq_add_neg, ← smul_neg]
  rfl

/-- The equation of the random phase approximation has exactly one solution if that of the tensor has. -/
theorem pairs_unique (hJ : SpinExchange J) (hP : Pairs A B P) {X : Grid L N (Matrix (WIdx m) (WIdx m) F)} (h : ∀ x, DysonChi dt J P x ↔ x = X) (y : Grid L N (Matrix (Fin m) (Fin m) F)) :
    RpaExchanged dt (constants J) (pairResponse A B) y ↔ y = contractChi szsz X := by
  have hX := pairs_dyson hJ hP ((h X).2 rfl)
  refine ⟨fun hy => ?_, fun e => e ▸ hX⟩
  set u : Grid L N (Matrix (Fin m) (Fin m) F) := fun r t => y r t - contractChi szsz X r t with hu
  have eu : ∀ r n, u r n = -(dt • conv2' 0 (constants J) (pairResponse A B) u r n) := by
    intro r n
    have e : conv2' 0 (constants J) (pairResponse A B) y r n = conv2' 0 (constants J) (pairResponse A B) u r n + conv2' 0 (constants J) (pairResponse A B) (contractChi szsz X) r n := by
      rw [← conv_add]
      congr 2
      funext r t
      simp [hu]
    have h1 := hy r n
    have h2 := hX r n
    rw [e] at h1
    simp only [hu] at h1 ⊢
    nth_rewrite 1 [h1]
    nth_rewrite 1 [h2]
    rw [smul_add]
    abel
  have hs : DysonChi dt J P fun r t => X r t + liftLin (u r t) := by
    intro r n
    rw [conv_add]
    have h1 := (h X).2 rfl r n
    have h2 := congrArg liftLin (eu r n)
    rw [map_neg, map_smul, conv_lin liftLin (fun r1 r2 t y => pairs_lift hJ hP r1 r2 t y), smul_neg, neg_neg] at h2
    change X r n + liftLin (u r n) = _
    nth_rewrite 1 [h1]
    nth_rewrite 1 [h2]
    rw [smul_add]
    abel
  have := (h _).1 hs
  funext r t
  have e := congrFun (congrFun this r) t
  have e0 : liftLin (u r t) = 0 := by simpa using e
  have e1 := contract_lift (u r t)
  rw [e0, ← contractLin_apply, map_zero] at e1
  exact sub_eq_zero.1 e1.symm

theorem pairs_unique_iff (hJ : SpinExchange J) (hP : Pairs A B P) : (∃! x, DysonChi dt J P x) ↔ ∃! y, RpaExchanged dt (constants J) (pairResponse A B) y := by
  constructor
  · rintro ⟨X, hX, hu⟩
    have h := pairs_unique hJ hP (fun x => ⟨hu x, fun e => e ▸ hX⟩)
    exact ⟨_, (h _).2 rfl, fun y hy => (h y).1 hy⟩
  · intro h
    have neg : ∀ y : Grid L N (Matrix (Fin m) (Fin m) F), RpaExchanged dt (constants J) (pairResponse A B) y ↔ ∀ r n, y r n = pairResponse A B r n + (-dt) • conv2' 0 (constants J) (pairResponse A B) y r n := by
      intro y
      unfold RpaExchanged
      simp only [neg_smul, sub_eq_add_neg]
    simp only [neg] at h
    rw [chi_unique_iff] at h
    unfold DysonChi
    rw [chi_unique_iff dt J P fun r n => -P r n]
    intro u hu
    have mul : ∀ (q : WIdx m) r1 r2 t X, rowLin q (J r1 0 * P r2 t * X) = -(constants J r1 0 * pairResponse A B r2 t * rowLin q X) := by
      intro q r1 r2 t X
      ext a b
      rw [rowLin_apply, pairs_mul hJ hP, pairs_mul hJ hP, Matrix.neg_apply, Matrix.mul_apply, Matrix.mul_apply]
      simp only [rowLin_apply]
      simp [pairSign]
      ring
    have row : ∀ (q : WIdx m) r t, rowLin q (u r t) = 0 := by
      intro q r t
      have := h (fun r t => rowLin q (u r t)) (fun r n => by
        have k := congrArg (rowLin q) (hu r n)
        rw [map_smul, conv_lin (rowLin q) (mul q), smul_neg, ← neg_smul] at k
        exact k)
      exact congrFun (congrFun this r) t
    have cz : ∀ (q : WIdx m) r z, rowLin q (cont 0 u r z) = 0 := by
      intro q r z
      rw [← cont_lin]
      unfold cont
      simp [row]
    funext r t
    ext ⟨p, a⟩ q
    have k := congrFun (congrFun (hu r t) (p, a)) q
    rw [k]
    change (dt • conv2' 0 J P u r t) (p, a) q = 0
    rw [Matrix.smul_apply]
    refine (congrArg _ ?_).trans (smul_zero _)
    unfold conv2'
    simp only [Matrix.sum_apply, Matrix.smul_apply]
    refine Finset.sum_eq_zero fun r1 _ => Finset.sum_eq_zero fun r2 _ => Finset.sum_eq_zero fun j _ => ?_
    rw [pairs_mul hJ hP, map_add, cz, cz, add_zero, mul_zero]
    simp

end

end

section
variable {F : Type} [Field F] [CharZero F] [StarRing F] {L : Fin 2 → ℕ} {N : ℕ} [∀ i, NeZero (L i)] [NeZero N]

theorem bk_pairs (Γ : Three L N F) : Pairs (fun r t => Matrix.of fun _ _ => Γ true r t t) (fun r t => Matrix.of fun _ _ => Γ false r t t) (bkPolar Γ) := by
  refine ⟨fun r t p q a b => ?_⟩
  simp only [bkPolar, Matrix.of_apply]
  split_ifs with c e
  · simp [e]
  · simp [e]
  · rfl

theorem ladder_pairs (Γ : Three L N F) : pairResponse (fun r t => Matrix.of fun _ _ : Fin 1 => Γ true r t t) (fun r t => Matrix.of fun _ _ : Fin 1 => Γ false r t t) = equalTimes Γ := by
  funext r t
  ext a b
  simp [pairResponse, equalTimes]

theorem one_comm (A B : Matrix (Fin 1) (Fin 1) F) : A * B = B * A := by
  ext a b
  rw [Matrix.mul_apply, Matrix.mul_apply]
  simp only [Finset.univ_unique, Finset.sum_singleton]
  rw [Subsingleton.elim a default, Subsingleton.elim b default, mul_comm]

theorem rpa_one {dt : F} {j : Grid L 1 (Matrix (Fin 1) (Fin 1) F)} {χ0 y : Grid L N (Matrix (Fin 1) (Fin 1) F)} : Rpa dt j χ0 y ↔ RpaExchanged dt j χ0 y := by
  have e : ∀ r n, conv2 0 χ0 j y r n = conv2' 0 j χ0 y r n := by
    intro r n
    unfold conv2 conv2'
    rw [Finset.sum_comm]
    refine Finset.sum_congr rfl fun r2 _ => Finset.sum_congr rfl fun r1 _ => Finset.sum_congr rfl fun t _ => ?_
    rw [one_comm (χ0 r1 t), sub_right_comm]
  unfold Rpa RpaExchanged
  simp only [e]

/-- `FullGGGammaG` does what `W_Dyson` does for the susceptibility, with another polarisation and without the exception. -/
theorem bk_full (κ κ0 : Kind) (E : Phase F) (solve : Solver (WIdx 1) F) (W0 : Plain L 1 (Matrix (WIdx 1) (WIdx 1) F)) (Γ : Three L N F) :
    fullGGGammaG κ κ0 E solve W0 Γ = match wDyson κ κ0 E solve (fun _ => false) W0 ⟨bkPolar Γ, false, false⟩ with
      | .done (_, X) => .done X
      | .touchZero => .touchZero
      | .crash => .crash := by
  unfold fullGGGammaG wDyson
  dsimp only
  split <;> simp_all

/-- A linear map of the values goes through the transforms. -/
theorem view_map {M M' : Type} [AddCommGroup M] [Module F M] [AddCommGroup M'] [Module F M'] (φ : M →ₗ[F] M') (κ : Kind) (E : Phase F) (f : Grid L N M) (s t : Bool) :
    κ.view E (fun r n => φ (f r n)) s t = fun r n => φ (κ.view E f s t r n) := by
  have e1 : ∀ f : Grid L N M, fftn E (fun r n => φ (f r n)) = fun r n => φ (fftn E f r n) := by
    intro f
    funext k n
    simp only [fftn, map_sum, map_smul]
  have e2 : ∀ (σ : ℕ) (f : Grid L N M), matsubara E σ (fun r n => φ (f r n)) = fun r n => φ (matsubara E σ f r n) := by
    intro σ f
    funext k n
    simp only [matsubara, map_sum, map_smul]
  unfold Kind.view
  by_cases h : (t && κ.hasTau) = true <;> cases s <;> simp [h, e1, e2]

section
variable {κ κ0 : Kind} {E : Phase F} {solve : Solver (WIdx 1) F} {W0 : Plain L 1 (Matrix (WIdx 1) (WIdx 1) F)} {J : Grid L 1 (Matrix (WIdx 1) (WIdx 1) F)}

/-- **C93**: the susceptibility that is saved as `BKChi` is the one solution of the equation of the random phase approximation in which the response of the spins is that of the three-point
function at equal times. -/
theorem C93_rpa (hκ : κ.beta ≠ 0 ∧ κ.hasTau = true ∧ κ.sym = true) (hκ0 : κ0.beta ≠ 0 ∧ κ0.hasTau = false) (hs : solve.Good) (hJ : W0.Shows κ0 E J) (sJ : SpinExchange J) (Γ : Three L N F)
    {c : Plain L N (Matrix (Fin 1) (Fin 1) F)} (h : bkChi κ κ0 E solve W0 Γ = .done c) :
    c.space = false ∧ c.time = false ∧ ∀ y, Rpa ((κ.beta / N : ℚ) : F) (constants J) (equalTimes Γ) y ↔ y = c.data := by
  unfold bkChi at h
  rw [bk_full] at h
  have hP : (Plain.mk (bkPolar Γ) false false).Shows κ E (bkPolar Γ) := (Kind.view_false _ _ _).symm
  have key := (C64_W κ κ0 E hκ.1 hκ.2.1 hκ.2.2 hκ0.1 hκ0.2 solve hs (fun _ => false) W0 _ J _ hJ hP).1
  cases e : wDyson κ κ0 E solve (fun _ => false) W0 ⟨bkPolar Γ, false, false⟩ with
  | done WX =>
    obtain ⟨W, X⟩ := WX
    rw [e] at h
    simp only [Outcome.done.injEq] at h
    have hX := (key W X e).2
    obtain ⟨x, sx, -⟩ := C63_faithful κ E (bins_pos N) (axes_pos L) hκ.1 X
    have hx : ∀ y, DysonChi ((κ.beta / N : ℚ) : F) J (bkPolar Γ) y ↔ y = x := by
      intro y
      rw [← hX]
      exact ⟨fun k => k.unique hκ.1 sx, fun k => k ▸ sx⟩
    have sc : (calculateChi X).Shows κ E (contractChi szsz x) := by
      unfold Plain.Shows at sx ⊢
      change contractChi szsz X.data = κ.view E (fun r n => contractLin szsz (x r n)) X.space X.time
      rw [view_map, ← sx]
      rfl
    have h2 := (C63_transform κ E (bins_pos N) (axes_pos L) hκ.1 _ _ sc [.R, .T]).2
    rw [h] at h2
    have e2 := (shows_RT hκ.1 sc).1
    rw [h] at e2
    refine ⟨by rw [h2.1]; simp [after], by rw [h2.2]; simp [after], fun y => ?_⟩
    rw [e2, rpa_one, ← ladder_pairs]
    exact pairs_unique sJ (bk_pairs Γ) hx y
  | touchZero => rw [e] at h; simp at h
  | crash => rw [e] at h; simp at h

/-- **C93**: the calculation fails exactly if this equation does not have exactly one solution, and never with `DenorminatorTouchZero`. -/
theorem C93_fails (hκ : κ.beta ≠ 0 ∧ κ.hasTau = true ∧ κ.sym = true) (hκ0 : κ0.beta ≠ 0 ∧ κ0.hasTau = false) (hs : solve.Good) (hJ : W0.Shows κ0 E J) (sJ : SpinExchange J) (Γ : Three L N F) :
    (bkChi κ κ0 E solve W0 Γ = .crash ↔ ¬ ∃! y, Rpa ((κ.beta / N : ℚ) : F) (constants J) (equalTimes Γ) y) ∧ bkChi κ κ0 E solve W0 Γ ≠ .touchZero := by
  have hP : (Plain.mk (bkPolar Γ) false false).Shows κ E (bkPolar Γ) := (Kind.view_false _ _ _).symm
  obtain ⟨-, h2, h3⟩ := C64_W κ κ0 E hκ.1 hκ.2.1 hκ.2.2 hκ0.1 hκ0.2 solve hs (fun _ => false) W0 _ J _ hJ hP
  have hc : bkChi κ κ0 E solve W0 Γ = .crash ↔ wDyson κ κ0 E solve (fun _ => false) W0 ⟨bkPolar Γ, false, false⟩ = .crash := by
    unfold bkChi
    rw [bk_full]
    cases wDyson κ κ0 E solve (fun _ => false) W0 ⟨bkPolar Γ, false, false⟩ <;> simp
  refine ⟨?_, ?_⟩
  · rw [hc, h2, h3, pairs_unique_iff sJ (bk_pairs Γ), ladder_pairs]
    simp only [rpa_one]
  · unfold bkChi fullGGGammaG factorise
    dsimp only
    split <;> simp_all
    split_ifs at *

/-- **C93**: with a three-point function without corrections, the response of the spins is that of the polarisation of first order. -/
theorem C93_bare {g : Grid L N (Matrix (GIdx 1) (GIdx 1) F)} (sG : SymG g) : equalTimes (simpleGG (L := L) fun s t => g 0 t (s, 0) (s, 0)) = bubble (polarFirst g) := by
  funext r t
  ext a b
  obtain rfl : a = 0 := Subsingleton.elim _ _
  obtain rfl : b = 0 := Subsingleton.elim _ _
  have z : (∀ i, (r i : ℕ) = 0) ↔ r = 0 := ⟨fun k => funext fun i => Fin.ext (k i), fun k i => by rw [k]; rfl⟩
  simp only [equalTimes, bubble, polarFirst, simpleGG, Matrix.of_apply, z]
  by_cases hr : r = 0
  · subst hr
    have h1 : signedAt (fun t => g 0 t (true, 0) (true, 0)) (t : ℕ) = g 0 t (true, 0) (true, 0) := by
      rw [signedAt, if_neg (by omega), binAt_in]
    have h2 : signedAt (fun t => g 0 t (true, 0) (true, 0)) (-((t : ℕ) : ℤ) - 1) = -g 0 (Fin.rev t) (true, 0) (true, 0) := by
      have e : -((t : ℕ) : ℤ) - 1 + N = ((Fin.rev t : Fin N) : ℕ) := by
        rw [Fin.val_rev]
        omega
      rw [signedAt, if_pos (by omega), e, binAt_in]
    rw [h1, h2]
    simp
    ring
  · simp [hr, sG.loc r _ _ _ (Or.inl hr)]

/-- **C93**: in zero field and without corrections of the three-point function, both ways give the same susceptibility. -/
theorem C93_same (hκ : κ.beta ≠ 0 ∧ κ.hasTau = true ∧ κ.sym = true) (hκ0 : κ0.beta ≠ 0 ∧ κ0.hasTau = false) {κg : Kind} (hg : κg.beta ≠ 0) (hs : solve.Good) (hJ : W0.Shows κ0 E J) (sJ : SymJ J)
    {g : Grid L N (Matrix (GIdx 1) (GIdx 1) F)} (sG : SymG g) {G : Plain L N (Matrix (GIdx 1) (GIdx 1) F)} (hG : G.Shows κg E g)
    {touches : Grid L N (Matrix (WIdx 1) (WIdx 1) F) → Bool} {Polar W X : Plain L N (Matrix (WIdx 1) (WIdx 1) F)} (hP : Polar.Shows κ E (polarFirst g))
    (h : wDyson κ κ0 E solve touches W0 Polar = .done (W, X)) {c : Plain L N (Matrix (Fin 1) (Fin 1) F)}
    (hc : bkChi κ κ0 E solve W0 (simpleGG fun s t => g 0 t (s, 0) (s, 0)) = .done c) : c.data = (measuredChi κ κg E X G).data := by
  have k1 := (C93_rpa hκ hκ0 hs hJ sJ.spin _ hc).2.2
  have k2 := (C79_rpa_partial hκ hκ0 hg hs hJ hP hG sJ (polarFirst_sym sG) sG h).1
  rw [C93_bare sG] at k1
  exact ((k2 _).1 (rpa_one.1 ((k1 _).2 rfl))).symm

end
end

/-! ### Cases -/

/-- An interaction of one spin with itself, with exchange constant 1. -/
noncomputable def unitJ : Grid (fun _ : Fin 2 => 1) 1 (Matrix (WIdx 1) (WIdx 1) ℂ) := fun _ _ => Matrix.of fun p q => exchange p.1 q.1 (1 / 4)

theorem unitJ_exchange : SpinExchange unitJ := by
  intro r t p q a b
  simp [unitJ, exchange]

theorem unit_rpa (x : ℂ) (y : Grid (fun _ : Fin 2 => 1) 1 (Matrix (Fin 1) (Fin 1) ℂ)) :
    Rpa (((1 : ℚ) / (1 : ℕ) : ℚ) : ℂ) (constants unitJ) (equalTimes fun s _ _ _ => if s then -2 * x else 0) y ↔ (1 + x) * y 0 0 0 0 = x := by
  have e : constants unitJ = fun _ _ => Matrix.of fun _ _ => 1 := by
    funext r t
    ext a b
    simp [constants, unitJ, exchange]
  have s1 : ∀ r : Fin 2 → Fin 1, r = 0 := fun r => Subsingleton.elim _ _
  constructor
  · intro h
    have k := congrFun (congrFun (h 0 0) 0) 0
    rw [e] at k
    simp [conv2, cont, equalTimes, Matrix.mul_apply] at k
    rw [s1 ((-fun _ => 0) - fun _ => 0)] at k
    linear_combination k
  · intro h r n
    rw [e]
    ext a b
    obtain rfl : a = 0 := Subsingleton.elim _ _
    obtain rfl : b = 0 := Subsingleton.elim _ _
    obtain rfl : n = 0 := Subsingleton.elim _ _
    rw [s1 r]
    simp [conv2, cont, equalTimes, Matrix.mul_apply]
    rw [s1 ((-fun _ => 0) - fun _ => 0)]
    linear_combination h

/-- `C93_rpa` and `C93_fails` for one spin: response 1 and exchange constant 1 give `1/2`, and response `-1` stops the program. -/
example : (∃ c, bkChi ⟨1, true, true⟩ ⟨1, true, false⟩ Phase.complex (inverter (WIdx 1) ℂ) ⟨unitJ, false, false⟩ (fun s _ _ (_ : Fin 1) => if s then -2 * 1 else 0) = .done c ∧ c.data 0 0 0 0 = 1 / 2) ∧
    bkChi ⟨1, true, true⟩ ⟨1, true, false⟩ Phase.complex (inverter (WIdx 1) ℂ) ⟨unitJ, false, false⟩ (fun s _ _ (_ : Fin 1) => if s then -2 * -1 else 0) = .crash := by
  have kJ : (⟨unitJ, false, false⟩ : Plain (fun _ : Fin 2 => 1) 1 (Matrix (WIdx 1) (WIdx 1) ℂ)).Shows ⟨1, true, false⟩ Phase.complex unitJ := (Kind.view_false _ _ _).symm
  have hκ : (⟨1, true, true⟩ : Kind).beta ≠ 0 ∧ (⟨1, true, true⟩ : Kind).hasTau = true ∧ (⟨1, true, true⟩ : Kind).sym = true := ⟨one_ne_zero, rfl, rfl⟩
  have hκ0 : (⟨1, true, false⟩ : Kind).beta ≠ 0 ∧ (⟨1, true, false⟩ : Kind).hasTau = false := ⟨one_ne_zero, rfl⟩
  constructor
  · have hf := C93_fails (N := 1) hκ hκ0 inverter_good kJ unitJ_exchange (fun s _ _ _ => if s then -2 * 1 else 0)
    cases e : bkChi ⟨1, true, true⟩ ⟨1, true, false⟩ Phase.complex (inverter (WIdx 1) ℂ) ⟨unitJ, false, false⟩ (fun s _ _ (_ : Fin 1) => if s then -2 * 1 else 0) with
    | done c =>
      have h := (C93_rpa hκ hκ0 inverter_good kJ unitJ_exchange _ e).2.2
      have h2 := (unit_rpa 1 c.data).1 ((h _).2 rfl)
      refine ⟨c, rfl, ?_⟩
      linear_combination h2 / 2
    | touchZero => exact absurd e hf.2
    | crash =>
      refine absurd ?_ (hf.1.1 e)
      refine ⟨fun _ _ => Matrix.of fun _ _ => 1 / 2, (unit_rpa 1 _).2 (by norm_num), fun y hy => ?_⟩
      have h2 := (unit_rpa 1 y).1 hy
      funext r t
      ext a b
      rw [Subsingleton.elim r 0, Subsingleton.elim t 0, Subsingleton.elim a 0, Subsingleton.elim b 0, Matrix.of_apply]
      linear_combination h2 / 2
  · refine (C93_fails (N := 1) hκ hκ0 inverter_good kJ unitJ_exchange _).1.2 ?_
    rintro ⟨y, hy, -⟩
    have h := (unit_rpa (-1) y).1 hy
    norm_num at h

/-- A propagator of one spin. -/
noncomputable def halfG : Grid (fun _ : Fin 2 => 1) 2 (Matrix (GIdx 1) (GIdx 1) ℂ) := fun _ _ => Matrix.of fun p q => if p = q then 1 / 2 else 0

theorem halfG_sym : SymG halfG := by
  refine ⟨fun r t p q h => ?_, fun r t s s' a => by simp [halfG], fun r t p q => ?_⟩
  · have : p ≠ q := h.resolve_left (not_not_intro (Subsingleton.elim _ _))
    simp [halfG, this]
  · simp only [halfG, Matrix.of_apply]
    split_ifs <;> simp

/-- `C93_bare` and `C93_same` for one spin: both ways return, and the susceptibility is `1/8`. -/
example : ∃ W X c, wDyson ⟨1, true, true⟩ ⟨1, true, false⟩ Phase.complex (inverter (WIdx 1) ℂ) (fun _ => false) ⟨fun _ _ => 0, false, false⟩ ⟨polarFirst halfG, false, false⟩ = .done (W, X) ∧
    bkChi ⟨1, true, true⟩ ⟨1, true, false⟩ Phase.complex (inverter (WIdx 1) ℂ) ⟨fun _ _ => 0, false, false⟩ (simpleGG fun s t => halfG 0 t (s, 0) (s, 0)) = .done c ∧
    c.data = (measuredChi ⟨1, true, true⟩ ⟨1, false, true⟩ Phase.complex X ⟨halfG, false, false⟩).data ∧ c.data 0 0 0 0 = 1 / 8 := by
  have sJ : SymJ (fun _ _ => 0 : Grid (fun _ : Fin 2 => 1) 1 (Matrix (WIdx 1) (WIdx 1) ℂ)) := ⟨fun r t p q a b => by simp [exchange], by simp, by simp⟩
  have kJ : (⟨fun _ _ => 0, false, false⟩ : Plain (fun _ : Fin 2 => 1) 1 (Matrix (WIdx 1) (WIdx 1) ℂ)).Shows ⟨1, true, false⟩ Phase.complex (fun _ _ => 0) := (Kind.view_false _ _ _).symm
  have kP : (⟨polarFirst halfG, false, false⟩ : Plain (fun _ : Fin 2 => 1) 2 (Matrix (WIdx 1) (WIdx 1) ℂ)).Shows ⟨1, true, true⟩ Phase.complex (polarFirst halfG) := (Kind.view_false _ _ _).symm
  have kG : (⟨halfG, false, false⟩ : Plain (fun _ : Fin 2 => 1) 2 (Matrix (GIdx 1) (GIdx 1) ℂ)).Shows ⟨1, false, true⟩ Phase.complex halfG := (Kind.view_false _ _ _).symm
  have hκ : (⟨1, true, true⟩ : Kind).beta ≠ 0 ∧ (⟨1, true, true⟩ : Kind).hasTau = true ∧ (⟨1, true, true⟩ : Kind).sym = true := ⟨one_ne_zero, rfl, rfl⟩
  have hκ0 : (⟨1, true, false⟩ : Kind).beta ≠ 0 ∧ (⟨1, true, false⟩ : Kind).hasTau = false := ⟨one_ne_zero, rfl⟩
  have free : ∀ (dt : ℂ) (χ0 y : Grid (fun _ : Fin 2 => 1) 2 (Matrix (Fin 1) (Fin 1) ℂ)),
      Rpa dt (constants (fun _ _ => 0 : Grid (fun _ : Fin 2 => 1) 1 (Matrix (WIdx 1) (WIdx 1) ℂ))) χ0 y ↔ y = χ0 := by
    intro dt χ0 y
    have e : constants (fun _ _ => 0 : Grid (fun _ : Fin 2 => 1) 1 (Matrix (WIdx 1) (WIdx 1) ℂ)) = fun _ _ => 0 := by
      funext r t
      ext a b
      simp [constants]
    rw [e]
    simp only [Rpa, conv2, mul_zero, zero_mul, smul_zero, Finset.sum_const_zero, sub_zero]
    exact ⟨fun h => funext fun r => funext fun n => h r n, fun h r n => by rw [h]⟩
  have hu : ∃! x, DysonChi (((⟨1, true, true⟩ : Kind).beta / (2 : ℕ) : ℚ) : ℂ) (fun _ _ => 0) (polarFirst halfG) x := ⟨_, (dysonChi_zero _ _ _).2 rfl, fun x h => (dysonChi_zero _ _ _).1 h⟩
  have h3 := (C64_W ⟨1, true, true⟩ ⟨1, true, false⟩ Phase.complex hκ.1 hκ.2.1 hκ.2.2 hκ0.1 hκ0.2 (inverter (WIdx 1) ℂ) inverter_good (fun _ => false) _ _ _ _ kJ kP).2.2
  obtain ⟨⟨W, X⟩, e⟩ := wDyson_done hκ hκ0 (inverter_good (S := WIdx 1) (F := ℂ)) (touches := fun _ => false) (fun _ => rfl) kJ kP (h3.2 hu)
  have hf := C93_fails (N := 2) hκ hκ0 inverter_good kJ sJ.spin (simpleGG fun s t => halfG 0 t (s, 0) (s, 0))
  cases ec : bkChi ⟨1, true, true⟩ ⟨1, true, false⟩ Phase.complex (inverter (WIdx 1) ℂ) ⟨fun _ _ => 0, false, false⟩ (simpleGG fun s t => halfG 0 t (s, 0) (s, 0)) with
  | done c =>
    refine ⟨W, X, c, e, rfl, C93_same hκ hκ0 one_ne_zero inverter_good kJ sJ halfG_sym kG kP e ec, ?_⟩
    have h := (C93_rpa hκ hκ0 inverter_good kJ sJ.spin _ ec).2.2
    rw [← (h _).1 ((free _ _ _).2 rfl), C93_bare halfG_sym]
    simp [bubble, polarFirst, halfG]
    norm_num
  | touchZero => exact absurd ec hf.2
  | crash => exact absurd ⟨_, (free _ _ _).2 rfl, fun y hy => (free _ _ _).1 hy⟩ (hf.1.1 ec)

end Feyn
