import Verif.Proof.Fourier

/-!
# Transforms of weights between the domains (C63)
-/

namespace Feyn

set_option linter.unusedSectionVars false

section
variable {F M : Type} [Field F] [CharZero F] [AddCommGroup M] [Module F M] {d : ℕ} {L : Fin d → ℕ} {N : ℕ}

theorem Kind.view_false (κ : Kind) (E : Phase F) (f : Grid L N M) : κ.view E f false false = f := by simp [Kind.view]

theorem Kind.toW_view (κ : Kind) (E : Phase F) (hN : 0 < N) (hb : κ.beta ≠ 0) (f : Grid L N M) (s : Bool) :
    κ.toW E (κ.view E f s false) = κ.view E f s true := by
  cases ht : κ.hasTau
  · simp [Kind.toW, Kind.view, ht]
  · rw [κ.toW_eq E hN hb ht]
    cases s <;> simp [Kind.view, ht, fftn_matsubara]

theorem Kind.toT_view (κ : Kind) (E : Phase F) (hN : 0 < N) (hb : κ.beta ≠ 0) (f : Grid L N M) (s : Bool) :
    κ.toT E (κ.view E f s true) = κ.view E f s false := by
  rw [← κ.toW_view E hN hb, κ.toT_toW E hN]

theorem Kind.fftn_view (κ : Kind) (E : Phase F) (f : Grid L N M) (t : Bool) :
    fftn E (κ.view E f false t) = κ.view E f true t := by simp [Kind.view]

theorem Kind.ifftn_view (κ : Kind) (E : Phase F) (hL : ∀ i, 0 < L i) (f : Grid L N M) (t : Bool) :
    ifftn E (κ.view E f true t) = κ.view E f false t := by rw [← κ.fftn_view, ifftn_fftn E hL]

/-- **C63**: `FFT` changes the domains as told and nothing else: a weight that represents a function of lattice vector and time before the call
represents the same function after it. -/
theorem C63_transform (κ : Kind) (E : Phase F) (hN : 0 < N) (hL : ∀ i, 0 < L i) (hb : κ.beta ≠ 0) (w : Plain L N M) (f : Grid L N M)
    (h : w.Shows κ E f) (ls : List Letter) :
    (w.fft κ E ls).Shows κ E f ∧ (w.fft κ E ls).space = after w.space (Letter.R ∈ ls) (Letter.K ∈ ls) ∧
      (w.fft κ E ls).time = after w.time (Letter.T ∈ ls) (Letter.W ∈ ls) := by
  obtain ⟨g, s, t⟩ := w
  unfold Plain.Shows at h
  simp only at h
  subst h
  unfold Plain.Shows Plain.fft
  cases s <;> cases t <;> by_cases hR : Letter.R ∈ ls <;> by_cases hK : Letter.K ∈ ls <;> by_cases hT : Letter.T ∈ ls <;>
    by_cases hW : Letter.W ∈ ls <;>
    simp [hR, hK, hT, hW, after, Kind.fftn_view, Kind.ifftn_view, Kind.toW_view, Kind.toT_view, hN, hL, hb]

/-- **C63**: along any sequence of transforms a weight represents the same function; back in real space and time it holds the data that it started
with. -/
theorem C63_sequence (κ : Kind) (E : Phase F) (hN : 0 < N) (hL : ∀ i, 0 < L i) (hb : κ.beta ≠ 0) (f : Grid L N M)
    (calls : List (List Letter)) :
    let w := calls.foldl (fun w ls => Plain.fft κ E w ls) ⟨f, false, false⟩
    w.data = κ.view E f w.space w.time ∧ (w.fft κ E [.R, .T]).data = f := by
  have key : ∀ (calls : List (List Letter)) (w : Plain L N M), w.Shows κ E f →
      (calls.foldl (fun w ls => Plain.fft κ E w ls) w).Shows κ E f := by
    intro calls
    induction calls with
    | nil => intro w h; exact h
    | cons ls calls ih => intro w h; exact ih _ (C63_transform κ E hN hL hb w f h ls).1
  have h1 := key calls ⟨f, false, false⟩ (κ.view_false E f).symm
  refine ⟨h1, ?_⟩
  obtain ⟨h2, h3, h4⟩ := C63_transform κ E hN hL hb _ f h1 [.R, .T]
  unfold Plain.Shows at h2
  rw [h3, h4] at h2
  rw [h2]
  simp [after, Kind.view]

/-- **C63**: every array is the representation, in every domain, of exactly one function of lattice vector and time. -/
theorem C63_faithful (κ : Kind) (E : Phase F) (hN : 0 < N) (hL : ∀ i, 0 < L i) (hb : κ.beta ≠ 0) (w : Plain L N M) :
    ∃! f : Grid L N M, w.Shows κ E f := by
  obtain ⟨g, s, t⟩ := w
  unfold Plain.Shows
  simp only
  have ex : ∀ t, ∀ a : Grid L N M, ∃ f, κ.view E f false t = a := by
    intro t a
    cases t
    · exact ⟨a, κ.view_false E a⟩
    · refine ⟨κ.toT E a, ?_⟩
      rw [← κ.toW_view E hN hb, κ.view_false, κ.toW_toT E hN]
  have inj : ∀ t, ∀ f f' : Grid L N M, κ.view E f false t = κ.view E f' false t → f = f' := by
    intro t f f' h
    cases t
    · simpa [Kind.view] using h
    · have := congrArg (κ.toT E) h
      rw [κ.toT_view E hN hb, κ.toT_view E hN hb, κ.view_false, κ.view_false] at this
      exact this
  cases s
  · obtain ⟨f, hf⟩ := ex t g
    exact ⟨f, hf.symm, fun f' h => inj t _ _ (by rw [hf]; exact h.symm)⟩
  · obtain ⟨f, hf⟩ := ex t (ifftn E g)
    refine ⟨f, ?_, fun f' h => inj t _ _ ?_⟩
    · show g = _
      rw [← κ.fftn_view, hf, fftn_ifftn E hL]
    · simp only at h
      rw [hf, h, κ.ifftn_view E hL]

/-- **C63**, in terms of complex numbers: `FFT("K","W")` on a weight of fermions or bosons computes
`sum over r and n of exp(-2 pi i (r.k/L)) exp(-i omega_m tau_n) f(r, tau_n)` with the Matsubara frequencies
`omega_m = (2 m + sigma) pi / beta` and the centres `tau_n` of the bins. -/
theorem C63_matsubara (κ : Kind) (hN : 0 < N) (hL : ∀ i, 0 < L i) (hb : κ.beta ≠ 0) (ht : κ.hasTau = true) {M : Type} [AddCommGroup M]
    [Module ℂ M] (f : Grid L N M) (k : ∀ i, Fin (L i)) (m : Fin N) :
    ((Plain.mk f false false).fft κ Phase.complex [.K, .W]).data k m =
      ∑ r : ∀ i, Fin (L i), ∑ n : Fin N,
        (Complex.exp (-Complex.I * ∑ i, (2 * Real.pi * (k i : ℕ) / L i) * (r i : ℕ)) *
          Complex.exp (-Complex.I * (((2 * (m : ℕ) + if κ.sym then 0 else 1) * Real.pi / κ.beta) *
            (((n : ℕ) + 1 / 2) * κ.beta / N)))) • f r n := by
  have h := C63_transform κ Phase.complex hN hL hb ⟨f, false, false⟩ f (κ.view_false _ f).symm [.K, .W]
  obtain ⟨h1, h2, h3⟩ := h
  unfold Plain.Shows at h1
  rw [h1, h2, h3]
  simp only [after, List.mem_cons, List.not_mem_nil, or_false, reduceCtorEq, Kind.view, ht]
  simp only [or_true, decide_true, if_true, Bool.and_self]
  unfold fftn matsubara
  refine Finset.sum_congr rfl fun r _ => ?_
  rw [Finset.smul_sum]
  refine Finset.sum_congr rfl fun n _ => ?_
  rw [smul_smul]
  have hN' : (N : ℂ) ≠ 0 := by exact_mod_cast hN.ne'
  have hb' : (κ.beta : ℂ) ≠ 0 := by exact_mod_cast hb
  congr 2
  · unfold Phase.complex angle
    simp only
    congr 1
    push_cast
    rw [Finset.mul_sum, Finset.mul_sum]
    refine Finset.sum_congr rfl fun i _ => ?_
    have hL' : (L i : ℂ) ≠ 0 := by exact_mod_cast (hL i).ne'
    field_simp
  · unfold Phase.complex Kind.sigma
    simp only
    congr 1
    cases κ.sym <;> simp <;> field_simp

end

/-- The hypotheses hold for a two by three lattice with four bins. -/
example : (∀ i, 0 < (![2, 3] : Fin 2 → ℕ) i) ∧ 0 < 4 ∧ (⟨1 / 2, false, true⟩ : Kind).beta ≠ 0 := by
  refine ⟨fun i => ?_, by decide, by norm_num⟩
  fin_cases i <;> decide

/-- Without the additional phase factor the transform is another one: with two bins and a function that is one at the first bin,
the second frequency of bosons has the value `-i` with the factor and `1` without. -/
example : (⟨1, true, true⟩ : Kind).toW Phase.complex (L := fun _ : Fin 0 => 1) (N := 2) (fun _ n => if n = 0 then (1 : ℂ) else 0) (fun i => i.elim0) 1
    = -Complex.I ∧
    (⟨1, true, true⟩ : Kind).accuToW Phase.complex (L := fun _ : Fin 0 => 1) (N := 2) (fun _ n => if n = 0 then (1 : ℂ) else 0) (fun i => i.elim0) 1
    = 1 := by
  have h0 : Phase.complex.ph 0 = 1 := Phase.complex.zero
  have h1 : Phase.complex.ph (1 / 2) = -Complex.I := by
    show Complex.exp _ = _
    rw [show -(Real.pi * Complex.I) * ((1 / 2 : ℚ) : ℂ) = -(Real.pi / 2 * Complex.I) by push_cast; ring, Complex.exp_neg,
      Complex.exp_pi_div_two_mul_I]
    simp
  constructor
  · simp [Kind.toW, Kind.additionalPhase, Kind.changeSymmetry, fft, h0]
    simpa using h1
  · simp [Kind.accuToW, Kind.changeSymmetry, fft, h0]

end Feyn
