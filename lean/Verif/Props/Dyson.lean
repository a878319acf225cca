import Verif.Proof.Dyson
import Mathlib.LinearAlgebra.Matrix.NonsingularInverse
import Mathlib.LinearAlgebra.Matrix.ToLinearEquiv

/-!
# The Dyson equations are solved (C64)
-/

namespace Feyn

set_option linter.unusedSectionVars false

section
variable {S F : Type} [Fintype S] [DecidableEq S] [Field F] [CharZero F] {d : ℕ} {L : Fin d → ℕ} {N : ℕ} [NeZero N] [∀ i, NeZero (L i)]

theorem view_full (κ : Kind) (E : Phase F) (ht : κ.hasTau = true) (f : Grid L N (Matrix S S F)) :
    κ.view E f true true = full E κ.sigma f := by
  simp [Kind.view, full, ht]

theorem shown_full (κ : Kind) (E : Phase F) (hb : κ.beta ≠ 0) (ht : κ.hasTau = true) (w : Plain L N (Matrix S S F)) (f : Grid L N (Matrix S S F))
    (h : w.Shows κ E f) : (w.fft κ E [.K, .W]).data = full E κ.sigma f := by
  obtain ⟨h1, h2, h3⟩ := C63_transform κ E (Nat.pos_of_ne_zero (NeZero.ne N)) (fun i => Nat.pos_of_ne_zero (NeZero.ne (L i))) hb w f h [.K, .W]
  unfold Plain.Shows at h1
  rw [h1, h2, h3, ← view_full κ E ht]
  simp [after]

theorem shown_delta (κ : Kind) (E : Phase F) (hb : κ.beta ≠ 0) (ht : κ.hasTau = false) (w : Plain L 1 (Matrix S S F)) (f : Grid L 1 (Matrix S S F))
    (h : w.Shows κ E f) : (w.fft κ E [.K]).data = fftn E f := by
  obtain ⟨h1, h2, h3⟩ := C63_transform κ E (by norm_num) (fun i => Nat.pos_of_ne_zero (NeZero.ne (L i))) hb w f h [.K]
  unfold Plain.Shows at h1
  rw [h1, h2]
  simp [after, Kind.view, ht]

theorem full_bij (E : Phase F) (σ : ℕ) (hσ : σ = 0 ∨ σ = 1) : Function.Bijective (full E σ : Grid L N (Matrix S S F) → _) := by
  have hN := Nat.pos_of_ne_zero (NeZero.ne N)
  have hL := fun i => Nat.pos_of_ne_zero (NeZero.ne (L i))
  have hk : ∃ κ : Kind, κ.beta ≠ 0 ∧ κ.hasTau = true ∧ κ.sigma = σ := by
    rcases hσ with rfl | rfl
    · exact ⟨⟨1, true, true⟩, one_ne_zero, rfl, rfl⟩
    · exact ⟨⟨1, false, true⟩, one_ne_zero, rfl, rfl⟩
  obtain ⟨κ, hb, ht, rfl⟩ := hk
  constructor
  · intro f g h
    obtain ⟨x, _, hx⟩ := C63_faithful κ E hN hL hb ⟨full E κ.sigma f, true, true⟩
    exact (hx f (view_full κ E ht f).symm).trans (hx g (by show full E κ.sigma f = _; rw [h, view_full κ E ht])).symm
  · intro g
    obtain ⟨x, hx, _⟩ := C63_faithful κ E hN hL hb ⟨g, true, true⟩
    exact ⟨x, ((show g = _ from hx).trans (view_full κ E ht x)).symm⟩

/-- A family of linear equations for the transform of a function has exactly one solution if no matrix is singular, and not exactly one
otherwise. -/
theorem solutions (E : Phase F) (σ : ℕ) (hσ : σ = 0 ∨ σ = 1) (D B : Grid L N (Matrix S S F)) :
    (∃! g : Grid L N (Matrix S S F), ∀ k m, D k m * full E σ g k m = B k m) ↔ ∀ k m, (D k m).det ≠ 0 := by
  classical
  constructor
  · rintro ⟨g, hg, hu⟩ k m h0
    obtain ⟨v, hv, hD⟩ := Matrix.exists_mulVec_eq_zero_iff.2 h0
    have hS : ∃ i, v i ≠ 0 := Function.ne_iff.1 hv
    obtain ⟨i, hi⟩ := hS
    let X : Matrix S S F := Matrix.of fun a _ => v a
    have hX : D k m * X = 0 := by
      ext a b
      have := congrFun hD a
      simpa [Matrix.mul_apply, Matrix.mulVec, dotProduct, X] using this
    obtain ⟨f, hf⟩ := (full_bij (S := S) E σ hσ).2 (fun k' m' => if k' = k ∧ m' = m then X else (0 : Matrix S S F))
    have h2 : (fun r n => g r n + f r n) = g := by
      refine hu _ fun k' m' => ?_
      rw [full_add, hf, mul_add, hg k' m']
      simp only
      split
      · rename_i h; obtain ⟨rfl, rfl⟩ := h; rw [hX, add_zero]
      · rw [mul_zero, add_zero]
    have h3 : full E σ f k m = 0 := by
      have := congrFun (congrFun (congrArg (full E σ) h2) k) m
      rw [full_add] at this
      exact left_eq_add.1 this.symm
    rw [hf] at h3
    have := congrFun (congrFun h3 i) i
    simp [X] at this
    exact hi this
  · intro h
    obtain ⟨g, hg⟩ := (full_bij (S := S) E σ hσ).2 (fun k m => (D k m)⁻¹ * B k m)
    refine ⟨g, fun k m => ?_, fun g' h' => (full_bij (S := S) E σ hσ).1 ?_⟩
    · rw [hg]
      simp only
      rw [← mul_assoc, Matrix.mul_nonsing_inv _ (h k m).isUnit, one_mul]
    · funext k m
      rw [hg]
      simp only
      rw [← h' k m, ← mul_assoc, Matrix.nonsing_inv_mul _ (h k m).isUnit, one_mul]

/-- What `factorise` reports, and what its solutions are. -/
theorem factorised {solve : Solver S F} (hs : solve.Good) {touches : Grid L N (Matrix S S F) → Bool} (D : Grid L N (Matrix S S F)) :
    (∀ lu, factorise solve touches D = .done lu → ∀ B X : Grid L N (Matrix S S F),
      (X = fun k m => lu k m (B k m)) ↔ ∀ k m, D k m * X k m = B k m) ∧
    (factorise solve touches D = .crash ↔ ¬ ∀ k m, (D k m).det ≠ 0) := by
  have h1 : ∀ k m, (solve (D k m)).isSome = true ↔ (D k m).det ≠ 0 := by
    intro k m
    cases h : solve (D k m) with
    | none => simpa using hs.2 _ h
    | some s =>
      simp only [Option.isSome_some, true_iff]
      intro h0
      have h2 := congrArg Matrix.det (hs.1 _ _ h 1)
      rw [Matrix.det_mul, h0, zero_mul, Matrix.det_one] at h2
      exact zero_ne_one h2
  constructor
  · intro lu h B X
    unfold factorise at h
    split at h
    · rename_i hall
      split at h
      · cases h
      · cases h
        have h2 : ∀ k m, D k m * ((solve (D k m)).getD id) (B k m) = B k m := by
          intro k m
          obtain ⟨s, h⟩ := Option.isSome_iff_exists.1 (hall k m)
          rw [h]
          exact hs.1 _ _ h _
        constructor
        · rintro rfl k m
          exact h2 k m
        · intro hX
          funext k m
          have hu := ((h1 k m).1 (hall k m)).isUnit
          have h3 := (hX k m).trans (h2 k m).symm
          have h4 := congrArg (fun Y => (D k m)⁻¹ * Y) h3
          simp only [← mul_assoc] at h4
          rwa [Matrix.nonsing_inv_mul _ hu, one_mul, one_mul] at h4
    · cases h
  · have h5 : (∀ k m, (D k m).det ≠ 0) ↔ ∀ k m, (solve (D k m)).isSome = true := by simp only [h1]
    rw [h5]
    unfold factorise
    split
    · rename_i hall
      split <;> simp [hall]
    · rename_i hall
      simpa using hall

theorem fermion_cos (E : Phase F) (β : ℚ) (hb : β ≠ 0) (m : Fin N) :
    E.cos (indexToTau β N m / β) = E.cos ((2 * ((m : ℕ) : ℚ) + (1 : ℕ)) / (2 * N)) := by
  have hN : (N : ℚ) ≠ 0 := by exact_mod_cast NeZero.ne N
  unfold indexToTau
  congr 1
  push_cast
  field_simp

theorem boson_cos (E : Phase F) (m : Fin N) :
    E.cos (((m : ℕ) : ℚ) / N) = E.cos ((2 * ((m : ℕ) : ℚ) + (0 : ℕ)) / (2 * N)) := by
  have hN : (N : ℚ) ≠ 0 := by exact_mod_cast NeZero.ne N
  congr 1
  push_cast
  field_simp
  ring

/-- The Dyson equation of the propagator after the transforms. -/
theorem dysonG_iff (E : Phase F) (dt : F) (g0 : Grid L N (Matrix S S F)) (δ : Grid L 1 (Matrix S S F)) (s g : Grid L N (Matrix S S F)) :
    DysonG dt g0 δ s g ↔ ∀ k (m : Fin N), (1 - dt • (dt • (full E 1 g0 k m * full E 1 s k m) +
      E.cos ((2 * ((m : ℕ) : ℚ) + (1 : ℕ)) / (2 * N)) • (full E 1 g0 k m * fftn E δ k 0))) * full E 1 g k m = full E 1 g0 k m := by
  have h1 : DysonG dt g0 δ s g ↔ g = fun r n => g0 r n + (dt * dt) • conv3 1 g0 s g r n + dt • conv2 1 g0 δ g r n := by
    unfold DysonG
    rw [funext_iff]
    simp only [funext_iff]
  rw [h1, ← (full_bij (S := S) E 1 (.inr rfl)).1.eq_iff, funext_iff]
  refine forall_congr' fun k => ?_
  rw [funext_iff]
  refine forall_congr' fun m => ?_
  rw [full_add, full_add, full_smul, full_smul, full_conv3 E 1 (.inr rfl), full_conv2 E 1 (.inr rfl)]
  simp only [sub_mul, one_mul, smul_mul_assoc, smul_add, add_mul, smul_smul]
  rw [sub_eq_iff_eq_add, add_assoc]

theorem dysonW_iff (E : Phase F) (dt : F) (J : Grid L 1 (Matrix S S F)) (P w : Grid L N (Matrix S S F)) :
    DysonW dt J P w ↔ ∀ k (m : Fin N), (1 - E.cos ((2 * ((m : ℕ) : ℚ) + (0 : ℕ)) / (2 * N)) • dt • (fftn E J k 0 * full E 0 P k m)) * full E 0 w k m =
      fftn E J k 0 * full E 0 P k m * fftn E J k 0 := by
  have h1 : DysonW dt J P w ↔ w = fun r n => conv1 J P J r n + dt • conv2' 0 J P w r n := by
    unfold DysonW
    rw [funext_iff]
    simp only [funext_iff]
  rw [h1, ← (full_bij (S := S) E 0 (.inl rfl)).1.eq_iff, funext_iff]
  refine forall_congr' fun k => ?_
  rw [funext_iff]
  refine forall_congr' fun m => ?_
  rw [full_add, full_smul, full_conv1, full_conv2' E 0 (.inl rfl)]
  simp only [sub_mul, one_mul, smul_mul_assoc]
  rw [sub_eq_iff_eq_add, smul_comm dt]

theorem dysonChi_iff (E : Phase F) (dt : F) (J : Grid L 1 (Matrix S S F)) (P w : Grid L N (Matrix S S F)) :
    DysonChi dt J P w ↔ ∀ k (m : Fin N), (1 - E.cos ((2 * ((m : ℕ) : ℚ) + (0 : ℕ)) / (2 * N)) • dt • (fftn E J k 0 * full E 0 P k m)) * full E 0 w k m =
      -full E 0 P k m := by
  have h1 : DysonChi dt J P w ↔ w = fun r n => -P r n + dt • conv2' 0 J P w r n := by
    unfold DysonChi
    rw [funext_iff]
    simp only [funext_iff]
  rw [h1, ← (full_bij (S := S) E 0 (.inl rfl)).1.eq_iff, funext_iff]
  refine forall_congr' fun k => ?_
  rw [funext_iff]
  refine forall_congr' fun m => ?_
  rw [full_add, full_smul, full_neg, full_conv2' E 0 (.inl rfl)]
  simp only [sub_mul, one_mul, smul_mul_assoc]
  rw [sub_eq_iff_eq_add, smul_comm dt]

/-- **C64**: if `G_Dyson` returns, the weight that it returns represents the function of lattice vector and time that solves the Dyson equation
`G = G0 + G0 (Sigma + Sigma_delta) G` on the bins, and no other function solves it. It ends with an exception other than `DenorminatorTouchZero`
exactly if the equation does not have exactly one solution. -/
theorem C64_G (κ κ0 : Kind) (E : Phase F) (hb : κ.beta ≠ 0) (ht : κ.hasTau = true) (hf : κ.sym = false) (hb0 : κ0.beta ≠ 0) (ht0 : κ0.hasTau = false)
    (solve : Solver S F) (hs : solve.Good) (touches : Grid L N (Matrix S S F) → Bool)
    (G0 Sigma : Plain L N (Matrix S S F)) (SigmaDelta : Plain L 1 (Matrix S S F)) (g0 s : Grid L N (Matrix S S F)) (δ : Grid L 1 (Matrix S S F))
    (h0 : G0.Shows κ E g0) (h1 : Sigma.Shows κ E s) (h2 : SigmaDelta.Shows κ0 E δ) :
    (∀ G, gDyson κ κ0 E solve touches G0 SigmaDelta Sigma = .done G →
      ∀ g, G.Shows κ E g ↔ DysonG ((κ.beta / N : ℚ) : F) g0 δ s g) ∧
    (gDyson κ κ0 E solve touches G0 SigmaDelta Sigma = .crash ↔ ¬ ∃! g, DysonG ((κ.beta / N : ℚ) : F) g0 δ s g) := by
  have hσ : κ.sigma = 1 := by simp [Kind.sigma, hf]
  have e0 := shown_full κ E hb ht G0 g0 h0
  have e1 := shown_full κ E hb ht Sigma s h1
  have e2 := shown_delta κ0 E hb0 ht0 SigmaDelta δ h2
  rw [hσ] at e0 e1
  set D : Grid L N (Matrix S S F) := fun k m => 1 - ((κ.beta / N : ℚ) : F) • (((κ.beta / N : ℚ) : F) • (full E 1 g0 k m * full E 1 s k m) +
      E.cos ((2 * ((m : ℕ) : ℚ) + (1 : ℕ)) / (2 * N)) • (full E 1 g0 k m * fftn E δ k 0)) with hD
  have hg : gDyson κ κ0 E solve touches G0 SigmaDelta Sigma = match factorise solve touches D with
      | .done lu => .done ⟨fun k m => lu k m (full E 1 g0 k m), true, true⟩
      | .touchZero => .touchZero
      | .crash => .crash := by
    unfold gDyson
    simp only [e0, e1, e2, fermion_cos E κ.beta hb]
    rfl
  obtain ⟨f1, f2⟩ := factorised (touches := touches) hs D
  simp only [dysonG_iff E]
  constructor
  · intro G hG g
    rw [hg] at hG
    cases hfac : factorise solve touches D with
    | touchZero => rw [hfac] at hG; cases hG
    | crash => rw [hfac] at hG; cases hG
    | done lu =>
      rw [hfac] at hG
      cases hG
      rw [← f1 lu hfac (full E 1 g0) (full E 1 g)]
      unfold Plain.Shows
      simp only [view_full κ E ht, hσ]
      exact eq_comm
  · rw [solutions E 1 (.inr rfl) D, ← f2, hg]
    cases factorise solve touches D <;> simp

/-- **C64**: if `W_Dyson` returns, its two results represent the functions that solve `W = J P J + J P W` and `X = -P + J P X` on the bins, and no other
functions solve them. It ends with an exception other than `DenorminatorTouchZero` exactly if the equations do not have exactly one
solution each. -/
theorem C64_W (κ κ0 : Kind) (E : Phase F) (hb : κ.beta ≠ 0) (ht : κ.hasTau = true) (hf : κ.sym = true) (hb0 : κ0.beta ≠ 0) (ht0 : κ0.hasTau = false)
    (solve : Solver S F) (hs : solve.Good) (touches : Grid L N (Matrix S S F) → Bool)
    (W0 : Plain L 1 (Matrix S S F)) (Polar : Plain L N (Matrix S S F)) (J : Grid L 1 (Matrix S S F)) (P : Grid L N (Matrix S S F))
    (h0 : W0.Shows κ0 E J) (h1 : Polar.Shows κ E P) :
    (∀ W X, wDyson κ κ0 E solve touches W0 Polar = .done (W, X) →
      (∀ w, W.Shows κ E w ↔ DysonW ((κ.beta / N : ℚ) : F) J P w) ∧ ∀ x, X.Shows κ E x ↔ DysonChi ((κ.beta / N : ℚ) : F) J P x) ∧
    (wDyson κ κ0 E solve touches W0 Polar = .crash ↔ ¬ ∃! w, DysonW ((κ.beta / N : ℚ) : F) J P w) ∧
    ((∃! w, DysonW ((κ.beta / N : ℚ) : F) J P w) ↔ ∃! x, DysonChi ((κ.beta / N : ℚ) : F) J P x) := by
  have hσ : κ.sigma = 0 := by simp [Kind.sigma, hf]
  have e1 := shown_full κ E hb ht Polar P h1
  have e2 := shown_delta κ0 E hb0 ht0 W0 J h0
  rw [hσ] at e1
  set D : Grid L N (Matrix S S F) := fun k m =>
    1 - E.cos ((2 * ((m : ℕ) : ℚ) + (0 : ℕ)) / (2 * N)) • ((κ.beta / N : ℚ) : F) • (fftn E J k 0 * full E 0 P k m) with hD
  have hg : wDyson κ κ0 E solve touches W0 Polar = match factorise solve touches D with
      | .done lu => .done (⟨fun k m => lu k m (fftn E J k 0 * full E 0 P k m * fftn E J k 0), true, true⟩,
          ⟨fun k m => lu k m (-full E 0 P k m), true, true⟩)
      | .touchZero => .touchZero
      | .crash => .crash := by
    unfold wDyson
    simp only [e1, e2, boson_cos E]
    rfl
  obtain ⟨f1, f2⟩ := factorised (touches := touches) hs D
  simp only [dysonW_iff E, dysonChi_iff E]
  refine ⟨?_, ?_, ?_⟩
  · intro W X hG
    rw [hg] at hG
    cases hfac : factorise solve touches D with
    | touchZero => rw [hfac] at hG; cases hG
    | crash => rw [hfac] at hG; cases hG
    | done lu =>
      rw [hfac] at hG
      cases hG
      constructor
      · intro w
        rw [← f1 lu hfac _ (full E 0 w)]
        unfold Plain.Shows
        simp only [view_full κ E ht, hσ]
        exact eq_comm
      · intro x
        rw [← f1 lu hfac _ (full E 0 x)]
        unfold Plain.Shows
        simp only [view_full κ E ht, hσ]
        exact eq_comm
  · rw [solutions E 0 (.inl rfl) D, ← f2, hg]
    cases factorise solve touches D <;> simp
  · rw [solutions E 0 (.inl rfl) D, solutions E 0 (.inl rfl) D]

end

/-- A solver as the theorems ask for. -/
noncomputable def inverter (S F : Type) [Fintype S] [DecidableEq S] [Field F] : Solver S F :=
  open Classical in fun D => if D.det = 0 then none else some fun B => D⁻¹ * B

theorem inverter_good {S F : Type} [Fintype S] [DecidableEq S] [Field F] : (inverter S F).Good := by
  constructor
  · intro D s h B
    unfold inverter at h
    split at h
    · cases h
    · rename_i h0
      cases h
      rw [← mul_assoc, Matrix.mul_nonsing_inv _ (Ne.isUnit h0), one_mul]
  · intro D h
    unfold inverter at h
    split at h
    · assumption
    · cases h

/-- One site, one bin of width one, `G0 = Sigma = 1`, no instantaneous part: the equation is `G = 1 - G` because of the antiperiodic continuation, the solution is `1/2`,
and `G_Dyson` returns. -/
example :
    let one : Grid (fun _ : Fin 0 => 1) 1 (Matrix Unit Unit ℂ) := fun _ _ => 1
    (∃ G, gDyson ⟨1, false, true⟩ ⟨1, true, false⟩ Phase.complex (inverter Unit ℂ) (fun _ => false) ⟨one, false, false⟩ ⟨fun _ _ => 0, false, false⟩
      ⟨one, false, false⟩ = .done G) ∧ DysonG 1 one (fun _ _ => 0) one fun _ _ => (1 / 2 : ℂ) • 1 := by
  intro one
  have sol : ∀ x : Grid (fun _ : Fin 0 => 1) 1 (Matrix Unit Unit ℂ), DysonG 1 one (fun _ _ => 0) one x ↔ x = fun _ _ => (1 / 2 : ℂ) • 1 := by
    intro x
    unfold DysonG conv3 conv2 cont
    have h1 : ∀ r : ∀ i : Fin 0, Fin 1, r = fun i => i.elim0 := fun r => funext fun i => i.elim0
    constructor
    · intro h
      funext r n
      have h2 := h r n
      have h3 : ∀ r', x r' = x r := fun r' => by rw [h1 r', h1 r]
      have h4 : ∀ n', x r n' = x r n := fun n' => by rw [Subsingleton.elim n' n]
      simp [one, h3, h4] at h2
      have h5 : (2 : ℂ) • x r n = 1 := by rw [two_smul]; nth_rw 1 [h2]; simp
      rw [← h5, smul_smul]
      norm_num
    · rintro rfl r n
      simp [one]
      rw [← sub_eq_zero]
      ext i j
      simp
      norm_num
  refine ⟨?_, (sol _).2 rfl⟩
  have h := (C64_G ⟨1, false, true⟩ ⟨1, true, false⟩ Phase.complex one_ne_zero rfl rfl one_ne_zero rfl (inverter Unit ℂ) inverter_good (fun _ => false)
    ⟨one, false, false⟩ ⟨one, false, false⟩ ⟨fun _ _ => 0, false, false⟩ one one (fun _ _ => 0) (Kind.view_false _ _ _).symm
    (Kind.view_false _ _ _).symm (Kind.view_false _ _ _).symm).2
  have h6 : ∃! g, DysonG (((1 : ℚ) / (1 : ℕ) : ℚ) : ℂ) one (fun _ _ => 0) one g := by
    refine ⟨fun _ _ => (1 / 2 : ℂ) • 1, ?_, fun y hy => (sol y).1 ?_⟩
    · simpa using (sol _).2 rfl
    · simpa using hy
  have h7 := mt h.1 (not_not.2 h6)
  revert h7
  unfold gDyson factorise
  simp only
  split
  · exact fun _ => ⟨_, rfl⟩
  · rename_i h8
    split at h8 <;> simp at h8
  · simp

end Feyn
