import Verif.Props.Lu

/-!
# The Dyson equations with the program's own linear solver (C88)
-/

namespace Feyn

open Lu

section
variable {Q F : Type} [LinearOrder Q] [Zero Q] [Field F] [DecidableEq F] {n : ℕ}

/-- The solver of the program is one as `C64_G` and `C64_W` ask for. -/
theorem C88_solver {size : F → Q} (hz : IsSize size) : (luSolver size : Solver (Fin n) F).Good := by
  constructor
  · intro D s h B
    simp only [luSolver] at h
    by_cases h0 : (zgetrf size D).info = 0
    · rw [if_pos h0] at h
      cases h
      exact solves hz D h0 B
    · rw [if_neg h0] at h
      cases h
  · intro D h
    simp only [luSolver] at h
    by_cases h0 : (zgetrf size D).info = 0
    · rw [if_pos h0] at h
      cases h
    · by_contra hd
      exact h0 ((info_iff hz D).2 hd)

theorem luDeterminant_eq {size : F → Q} (hz : IsSize size) (D : Matrix (Fin n) (Fin n) F) : luDeterminant size D = D.det := by
  unfold luDeterminant
  simp only
  rw [luDet_eq, ← det_eq hz]

variable {d : ℕ} {L : Fin d → ℕ} {N : ℕ}

theorem luTouches_iff {size : F → Q} (hz : IsSize size) (re im : F → Q) (small : Q) (D : Grid L N (Matrix (Fin n) (Fin n) F)) :
    luTouches size re im small D = true ↔ ∃ k m,
      (∀ k' m', re (D k m).det < re (D k' m').det ∨ re (D k m).det = re (D k' m').det ∧ im (D k m).det ≤ im (D k' m').det) ∧
        re (D k m).det < 0 ∧ im (D k m).det < small := by
  unfold luTouches
  rw [C88_check]
  simp only [luDeterminant_eq hz, List.mem_map, Finset.mem_toList, Finset.mem_univ, true_and, Prod.exists]
  constructor
  · rintro ⟨x, ⟨k, m, rfl⟩, h1, h2⟩
    exact ⟨k, m, fun k' m' => h1 _ ⟨k', m', rfl⟩, h2⟩
  · rintro ⟨k, m, h1, h2⟩
    refine ⟨_, ⟨k, m, rfl⟩, ?_, h2⟩
    rintro y ⟨k', m', rfl⟩
    exact h1 k' m'

theorem factorise_touch {size : F → Q} (hz : IsSize size) [CharZero F] (touches : Grid L N (Matrix (Fin n) (Fin n) F) → Bool) (D : Grid L N (Matrix (Fin n) (Fin n) F)) :
    factorise (luSolver size) touches D = .touchZero ↔ (∀ k m, (D k m).det ≠ 0) ∧ touches D = true := by
  have hs : (∀ k m, (luSolver size (D k m)).isSome) ↔ ∀ k m, (D k m).det ≠ 0 := by
    refine forall_congr' fun k => forall_congr' fun m => ?_
    rw [← info_iff hz]
    simp only [luSolver]
    split <;> simp_all
  unfold factorise
  rw [← hs]
  by_cases h : ∀ k m, (luSolver size (D k m)).isSome
  · rw [if_pos h]
    by_cases ht : touches D = true
    · simp [ht, h]
    · simp [ht]
  · rw [if_neg h]
    simp [h]

variable [CharZero F] [NeZero N] [∀ i, NeZero (L i)]

/-- The denominator of `W_Dyson` in momentum and frequency, from the functions of lattice vector and time. -/
def denominatorW (E : Phase F) (dt : F) (J : Grid L 1 (Matrix (Fin n) (Fin n) F)) (P : Grid L N (Matrix (Fin n) (Fin n) F)) : Grid L N (Matrix (Fin n) (Fin n) F) :=
  fun k m => 1 - E.cos (((m : ℕ) : ℚ) / N) • dt • (fftn E J k 0 * fftn E (matsubara E 0 P) k m)

/-- **C88**: `W_Dyson` with the solver and the check of the program. It ends with `DenorminatorTouchZero` exactly if the equation has exactly one solution and the
smallest determinant of the denominators has a negative real part and a small imaginary part. -/
theorem C88_W (κ κ0 : Kind) (E : Phase F) (hb : κ.beta ≠ 0) (ht : κ.hasTau = true) (hf : κ.sym = true) (hb0 : κ0.beta ≠ 0) (ht0 : κ0.hasTau = false)
    {size : F → Q} (hz : IsSize size) (re im : F → Q) (small : Q)
    (W0 : Plain L 1 (Matrix (Fin n) (Fin n) F)) (Polar : Plain L N (Matrix (Fin n) (Fin n) F)) (J : Grid L 1 (Matrix (Fin n) (Fin n) F)) (P : Grid L N (Matrix (Fin n) (Fin n) F))
    (h0 : W0.Shows κ0 E J) (h1 : Polar.Shows κ E P) :
    wDyson κ κ0 E (luSolver size) (luTouches size re im small) W0 Polar = .touchZero ↔
      (∃! w, DysonW ((κ.beta / N : ℚ) : F) J P w) ∧
        let D := denominatorW E ((κ.beta / N : ℚ) : F) J P
        ∃ k m, (∀ k' m', re (D k m).det < re (D k' m').det ∨ re (D k m).det = re (D k' m').det ∧ im (D k m).det ≤ im (D k' m').det) ∧
          re (D k m).det < 0 ∧ im (D k m).det < small := by
  have hσ : κ.sigma = 0 := by simp [Kind.sigma, hf]
  have e1 := shown_full κ E hb ht Polar P h1
  have e2 := shown_delta κ0 E hb0 ht0 W0 J h0
  rw [hσ] at e1
  have hD : denominatorW E ((κ.beta / N : ℚ) : F) J P = fun k (m : Fin N) =>
    1 - E.cos ((2 * ((m : ℕ) : ℚ) + (0 : ℕ)) / (2 * N)) • ((κ.beta / N : ℚ) : F) • (fftn E J k 0 * full E 0 P k m) := by
    funext k m
    unfold denominatorW
    rw [boson_cos E]
    rfl
  have hg : wDyson κ κ0 E (luSolver size) (luTouches size re im small) W0 Polar = .touchZero ↔
      factorise (luSolver size) (luTouches size re im small) (denominatorW E ((κ.beta / N : ℚ) : F) J P) = .touchZero := by
    rw [hD]
    unfold wDyson
    simp only [e1, e2, boson_cos E]
    generalize factorise (luSolver size) (luTouches size re im small) (_ : Grid L N (Matrix (Fin n) (Fin n) F)) = o
    cases o <;> simp
  rw [hg, factorise_touch hz, luTouches_iff hz]
  simp only [dysonW_iff E]
  rw [solutions E 0 (.inl rfl), hD]

end

/-! ## Real determinants -/

section
variable {d : ℕ} {L : Fin d → ℕ} {N n : ℕ} [NeZero N] [∀ i, NeZero (L i)]

/-- The size of a complex number in LAPACK, `cabs1`. -/
noncomputable def cabs1 (z : ℂ) : ℝ := |z.re| + |z.im|

theorem cabs1_size : IsSize cabs1 := by
  refine ⟨fun z => by unfold cabs1; positivity, fun {z} => ?_⟩
  unfold cabs1
  rw [add_eq_zero_iff_of_nonneg (abs_nonneg _) (abs_nonneg _), abs_eq_zero, abs_eq_zero, Complex.ext_iff]
  rfl

theorem complex_conj (a : ℚ) : star (Phase.complex.ph a) = Phase.complex.ph (-a) := by
  simp only [Phase.complex]
  rw [Complex.star_def, ← Complex.exp_conj]
  congr 1
  simp

theorem complex_angle_neg (r k : ∀ i, Fin (L i)) : Phase.complex.ph (angle (-r) k) = Phase.complex.ph (-angle r k) := by
  have h := ph_angle_add Phase.complex (-r) r k
  rw [neg_add_cancel] at h
  have h0 : Phase.complex.ph (angle (0 : ∀ i, Fin (L i)) k) = 1 := by
    have : angle (0 : ∀ i, Fin (L i)) k = 0 := by
      unfold angle
      refine Finset.sum_eq_zero fun i _ => ?_
      simp
    rw [this, Phase.zero]
  rw [h0] at h
  have h2 := Phase.complex.mul_neg (angle r k)
  have h3 : Phase.complex.ph (angle r k) ≠ 0 := left_ne_zero_of_mul_eq_one h2
  refine mul_right_cancel₀ h3 ?_
  rw [← h, mul_comm, h2]

theorem luDyson_hermitian {N : ℕ} (f : Grid L N (Matrix (Fin n) (Fin n) ℂ)) (m : Fin N) (h : ∀ r, (f r m).conjTranspose = f (-r) m) (k : ∀ i, Fin (L i)) :
    (fftn Phase.complex f k m).IsHermitian := by
  unfold fftn Matrix.IsHermitian
  rw [Matrix.conjTranspose_sum]
  refine Fintype.sum_equiv (Equiv.neg _) _ _ fun r => ?_
  rw [Matrix.conjTranspose_smul, complex_conj, h]
  simp only [Equiv.neg_apply]
  rw [complex_angle_neg]

omit [∀ i, NeZero (L i)] in
theorem matsubara_conj (f : Grid L N (Matrix (Fin n) (Fin n) ℂ)) (h : ∀ r t, (f r t).conjTranspose = f (-r) t.rev) (r : ∀ i, Fin (L i)) (m : Fin N) :
    (matsubara Phase.complex 0 f r m).conjTranspose = matsubara Phase.complex 0 f (-r) m := by
  unfold matsubara
  rw [Matrix.conjTranspose_sum]
  refine Fintype.sum_equiv Fin.revPerm _ _ fun t => ?_
  rw [Matrix.conjTranspose_smul, complex_conj, h]
  simp only [Fin.revPerm_apply]
  congr 1
  have hN : (N : ℚ) ≠ 0 := by exact_mod_cast NeZero.ne N
  have ht : (((t.rev : Fin N) : ℕ) : ℚ) = N - 1 - (t : ℕ) := by
    rw [Fin.val_rev, Nat.cast_sub (by have := t.2; omega)]
    push_cast
    ring
  have e : (2 * ((m : ℕ) : ℚ) + ((0 : ℕ) : ℚ)) * (((((t.rev : Fin N) : ℕ) : ℚ) + 1 / 2) / N) =
      2 * (((m : ℕ) : ℤ) : ℚ) + -((2 * ((m : ℕ) : ℚ) + ((0 : ℕ) : ℚ)) * ((((t : ℕ) : ℚ) + 1 / 2) / N)) := by
    rw [ht]
    push_cast
    field_simp
    ring
  rw [e, Phase.complex.add, Phase.complex.int, one_mul]

/-- The denominators of `W_Dyson` have real determinants, if the interaction and the polarisation have the symmetry of correlation functions. -/
theorem C88_real (dt : ℚ) (J : Grid L 1 (Matrix (Fin n) (Fin n) ℂ)) (P : Grid L N (Matrix (Fin n) (Fin n) ℂ))
    (hJ : ∀ r, (J r 0).conjTranspose = J (-r) 0) (hP : ∀ r t, (P r t).conjTranspose = P (-r) t.rev) (k : ∀ i, Fin (L i)) (m : Fin N) :
    (denominatorW Phase.complex (dt : ℂ) J P k m).det.im = 0 := by
  have h1 : (fftn Phase.complex J k 0).IsHermitian := luDyson_hermitian J 0 hJ k
  have h2 : (fftn Phase.complex (matsubara Phase.complex 0 P) k m).IsHermitian :=
    luDyson_hermitian _ m (fun r => matsubara_conj P hP r m) k
  unfold denominatorW
  generalize fftn Phase.complex J k 0 = A at h1
  generalize fftn Phase.complex (matsubara Phase.complex 0 P) k m = B at h2
  have hc : star (Phase.complex.cos (((m : ℕ) : ℚ) / N)) = Phase.complex.cos (((m : ℕ) : ℚ) / N) := by
    unfold Phase.cos
    rw [star_div₀, star_add, complex_conj, complex_conj, neg_neg, add_comm]
    simp
  generalize Phase.complex.cos (((m : ℕ) : ℚ) / N) = c at hc
  have hd : star (dt : ℂ) = dt := by simp
  have e : star (1 - c • (dt : ℂ) • (A * B)).det = (1 - c • (dt : ℂ) • (A * B)).det := by
    rw [← Matrix.det_conjTranspose, Matrix.conjTranspose_sub, Matrix.conjTranspose_smul, Matrix.conjTranspose_smul, hc, hd, Matrix.conjTranspose_mul, h1.eq, h2.eq,
      Matrix.conjTranspose_one, ← Matrix.smul_mul, ← Matrix.smul_mul, Matrix.det_one_sub_mul_comm, Matrix.mul_smul, Matrix.mul_smul]
  exact Complex.conj_eq_iff_im.1 e

/-- **C88**: with this symmetry, `W_Dyson` ends with `DenorminatorTouchZero` exactly if the equation has exactly one solution and the determinant of one of the
denominators is negative. -/
theorem C88_W_real (κ κ0 : Kind) (hb : κ.beta ≠ 0) (ht : κ.hasTau = true) (hf : κ.sym = true) (hb0 : κ0.beta ≠ 0) (ht0 : κ0.hasTau = false)
    (W0 : Plain L 1 (Matrix (Fin n) (Fin n) ℂ)) (Polar : Plain L N (Matrix (Fin n) (Fin n) ℂ)) (J : Grid L 1 (Matrix (Fin n) (Fin n) ℂ)) (P : Grid L N (Matrix (Fin n) (Fin n) ℂ))
    (h0 : W0.Shows κ0 Phase.complex J) (h1 : Polar.Shows κ Phase.complex P)
    (hJ : ∀ r, (J r 0).conjTranspose = J (-r) 0) (hP : ∀ r t, (P r t).conjTranspose = P (-r) t.rev) :
    wDyson κ κ0 Phase.complex (luSolver cabs1) (luTouches cabs1 Complex.re Complex.im (1 / 10000)) W0 Polar = .touchZero ↔
      (∃! w, DysonW ((κ.beta / N : ℚ) : ℂ) J P w) ∧ ∃ k m, (denominatorW Phase.complex ((κ.beta / N : ℚ) : ℂ) J P k m).det.re < 0 := by
  rw [C88_W κ κ0 Phase.complex hb ht hf hb0 ht0 cabs1_size _ _ _ W0 Polar J P h0 h1]
  refine and_congr_right fun _ => ?_
  have hr := C88_real (κ.beta / N) J P hJ hP
  simp only [hr]
  constructor
  · rintro ⟨k, m, -, h, -⟩
    exact ⟨k, m, h⟩
  · rintro ⟨k, m, h⟩
    obtain ⟨x, -, hx⟩ := Finset.exists_min_image (Finset.univ : Finset ((∀ i, Fin (L i)) × Fin N))
      (fun x => (denominatorW Phase.complex ((κ.beta / N : ℚ) : ℂ) J P x.1 x.2).det.re) ⟨(k, m), Finset.mem_univ _⟩
    refine ⟨x.1, x.2, fun k' m' => ?_, lt_of_le_of_lt (hx (k, m) (Finset.mem_univ _)) h, by norm_num⟩
    rcases lt_or_eq_of_le (hx (k', m') (Finset.mem_univ _)) with h' | h'
    · exact .inl h'
    · exact .inr ⟨h', le_refl _⟩

end

/-- One site, one bin of width one, `J = 2` and `P = 1`: the denominator is `1 - 2 < 0`. -/
example :
    let two : Grid (fun _ : Fin 0 => 1) 1 (Matrix (Fin 1) (Fin 1) ℂ) := fun _ _ => (2 : ℂ) • 1
    let one : Grid (fun _ : Fin 0 => 1) 1 (Matrix (Fin 1) (Fin 1) ℂ) := fun _ _ => 1
    wDyson ⟨1, true, true⟩ ⟨1, true, false⟩ Phase.complex (luSolver cabs1) (luTouches cabs1 Complex.re Complex.im (1 / 10000))
      ⟨two, false, false⟩ ⟨one, false, false⟩ = .touchZero := by
  intro two one
  have hden : ∀ k m, denominatorW Phase.complex (((1 : ℚ) / (1 : ℕ) : ℚ) : ℂ) two one k m = (-1 : ℂ) • 1 := by
    intro k m
    have hm : m = 0 := Subsingleton.elim _ _
    subst hm
    ext i j
    have hij : i = j := Subsingleton.elim _ _
    subst hij
    simp [denominatorW, fftn, matsubara, angle, two, one, Phase.cos, Phase.zero]
    norm_num
  refine (C88_W_real _ _ one_ne_zero rfl rfl one_ne_zero rfl ⟨two, false, false⟩ ⟨one, false, false⟩ two one ?_ ?_ ?_ ?_).2 ⟨?_, ?_⟩
  · simp [Plain.Shows, Kind.view]
  · simp [Plain.Shows, Kind.view]
  · intro r; simp [two]
  · intro r t; simp [one]
  · simp only [dysonW_iff Phase.complex]
    rw [solutions Phase.complex 0 (.inl rfl)]
    intro k m
    have h := hden k m
    unfold denominatorW at h
    rw [boson_cos Phase.complex] at h
    exact (congrArg (fun A : Matrix (Fin 1) (Fin 1) ℂ => A.det ≠ 0) h).mpr (by simp)
  · refine ⟨fun i => i.elim0, 0, ?_⟩
    rw [hden]
    simp

end Feyn
