import Verif.Proof.Energy
import Verif.Props.Momenta
import Mathlib.LinearAlgebra.Matrix.Trace

/-!
# The energy that is reported (C96)

The full claim is that `Energy` is the average energy per site in units of the nearest neighbour coupling. It is two thirds of that: each bond is counted twice, and one
component of three. The theorems with the suffix `_partial` say this for all lattices; the negation is `C96_refuted_energy`.
-/

set_option linter.unusedSimpArgs false
set_option linter.unnecessarySeqFocus false

namespace Feyn

section
variable {d n : ℕ} {A : Type*} [Ring A] [Algebra ℂ A]

theorem vec2Index_zero (l : List ℤ) (m : ℕ) : vec2Index l (List.replicate m 0) = 0 := by
  have key : ∀ (l : List ℤ) (m : ℕ), (l.zip (List.replicate m (0 : ℤ))).foldl (fun index p => index * p.1 + p.2) 0 = 0 := by
    intro l
    induction l with
    | nil => simp
    | cons a l ih =>
      intro m
      cases m with
      | zero => simp
      | succ m => simpa [List.replicate_succ] using ih m
  cases l with
  | nil => cases m <;> rfl
  | cons a l =>
    cases m with
    | zero => rfl
    | succ m => exact key l m

theorem sum_cells (L : Fin d → ℕ) {M : Type*} [AddCommMonoid M] (f : (Fin d → ℤ) → M) :
    ∑ r ∈ cells (fun i => (L i : ℤ)), f r = ∑ r : ∀ i, Fin (L i), f fun i => (r i : ℤ) := by
  symm
  refine Finset.sum_bij (fun r _ i => ((r i : ℕ) : ℤ)) (fun r _ => mem_cells.2 fun i => ⟨by positivity, by exact_mod_cast (r i).isLt⟩) ?_ ?_ (fun _ _ => rfl)
  · intro r _ s _ h
    funext i
    exact Fin.ext (by exact_mod_cast congrFun h i)
  · intro r hr
    have hr := mem_cells.1 hr
    refine ⟨fun i => ⟨(r i).toNat, by have := hr i; omega⟩, Finset.mem_univ _, ?_⟩
    funext i
    simp [(hr i).1]

theorem sum_cells_shift {L : Fin d → ℤ} (hL : ∀ i, 0 < L i) {M : Type*} [AddCommMonoid M] (f : (Fin d → ℤ) → M)
    (hf : ∀ r r', (∀ i, r i ≡ r' i [ZMOD L i]) → f r = f r') (r : Fin d → ℤ) : ∑ s ∈ cells L, f s = ∑ v ∈ cells L, f (r + v) := by
  have hmod : ∀ (x : Fin d → ℤ), (fun i => x i % L i) ∈ cells L := fun x =>
    mem_cells.2 fun i => ⟨Int.emod_nonneg _ (hL i).ne', Int.emod_lt_of_pos _ (hL i)⟩
  have hred : ∀ x ∈ cells L, ∀ i, x i % L i = x i := fun x hx i => Int.emod_eq_of_lt (mem_cells.1 hx i).1 (mem_cells.1 hx i).2
  refine Finset.sum_bij' (fun s _ i => (s i - r i) % L i) (fun v _ i => (r i + v i) % L i) (fun s _ => hmod _) (fun v _ => hmod _) ?_ ?_ ?_
  · intro s hs
    funext i
    simp [hred s hs i]
  · intro v hv
    funext i
    simp [hred v hv i]
  · intro s hs
    refine hf _ _ fun i => ?_
    simp only [Pi.add_apply]
    have := (Int.mod_modEq (s i - r i) (L i)).add_left (r i)
    rw [add_sub_cancel] at this
    exact this.symm

/-- C96: Square lattice. -/
theorem C96_square_partial {Lx Ly : ℤ} (hx : 2 ≤ Lx) (hy : 2 ≤ Ly) {S : Spins 2 1 A} {avg : A →ₗ[ℂ] ℂ} (h : UniformState ![Lx, Ly] S avg)
    {chi : Fin 1 → Fin 1 → ℤ → ℂ} (hc : HoldsCorrelations ![Lx, Ly] S avg chi) {J : ℂ} (hJ : J ≠ 0) :
    (square Lx Ly).energy ![Lx, Ly] chi = some (2 / 3 * (perSite ![Lx, Ly] 1 avg (exchangeEnergy ![Lx, Ly] (squareGeo.neighbour 1) J S) / J)) :=
  energy_eq (by norm_num) (fun i => by fin_cases i <;> simp <;> omega) _ (by norm_num) (B := squareB1)
    (fun a b => by fin_cases a <;> fin_cases b <;> simp [square, squareB1, Folds, Fin.forall_fin_two] <;> omega) (by decide +kernel) square_shells.1 h hc hJ

/-- C96: Checkerboard lattice. -/
theorem C96_checkerboard_partial {Lx Ly : ℤ} (hx : 2 ≤ Lx) (hy : 2 ≤ Ly) {S : Spins 2 2 A} {avg : A →ₗ[ℂ] ℂ} (h : UniformState ![Lx, Ly] S avg)
    {chi : Fin 2 → Fin 2 → ℤ → ℂ} (hc : HoldsCorrelations ![Lx, Ly] S avg chi) {J : ℂ} (hJ : J ≠ 0) :
    (checkerboard Lx Ly).energy ![Lx, Ly] chi = some (2 / 3 * (perSite ![Lx, Ly] 2 avg (exchangeEnergy ![Lx, Ly] (checkerboardGeo.neighbour 1) J S) / J)) :=
  energy_eq (by norm_num) (fun i => by fin_cases i <;> simp <;> omega) _ (by norm_num) (B := checkerboardB1)
    (fun a b => by fin_cases a <;> fin_cases b <;> simp [checkerboard, checkerboardB1, Folds, Fin.forall_fin_two] <;> omega) (by decide +kernel) checkerboard_shells.1 h hc hJ

/-- C96: Triangular lattice. -/
theorem C96_triangular_partial {Lx Ly : ℤ} (hx : 2 ≤ Lx) (hy : 2 ≤ Ly) {S : Spins 2 1 A} {avg : A →ₗ[ℂ] ℂ} (h : UniformState ![Lx, Ly] S avg)
    {chi : Fin 1 → Fin 1 → ℤ → ℂ} (hc : HoldsCorrelations ![Lx, Ly] S avg chi) {J : ℂ} (hJ : J ≠ 0) :
    (triangular Lx Ly).energy ![Lx, Ly] chi = some (2 / 3 * (perSite ![Lx, Ly] 1 avg (exchangeEnergy ![Lx, Ly] (triangularGeo.neighbour 1) J S) / J)) :=
  energy_eq (by norm_num) (fun i => by fin_cases i <;> simp <;> omega) _ (by norm_num) (B := triangularB1)
    (fun a b => by fin_cases a <;> fin_cases b <;> simp [triangular, triangularB1, Folds, Fin.forall_fin_two] <;> omega) (by decide +kernel) triangular_shells.1 h hc hJ

/-- C96: Triangular lattice with three sublattices. -/
theorem C96_asymmetric_partial {Lx Ly : ℤ} (hx : 2 ≤ Lx) (hy : 2 ≤ Ly) {S : Spins 2 3 A} {avg : A →ₗ[ℂ] ℂ} (h : UniformState ![Lx, Ly] S avg)
    {chi : Fin 3 → Fin 3 → ℤ → ℂ} (hc : HoldsCorrelations ![Lx, Ly] S avg chi) {J : ℂ} (hJ : J ≠ 0) :
    (asymmetric Lx Ly).energy ![Lx, Ly] chi = some (2 / 3 * (perSite ![Lx, Ly] 3 avg (exchangeEnergy ![Lx, Ly] (asymmetricGeo.neighbour 1) J S) / J)) :=
  energy_eq (by norm_num) (fun i => by fin_cases i <;> simp <;> omega) _ (by norm_num) (B := asymmetricB1)
    (fun a b => by fin_cases a <;> fin_cases b <;> simp [asymmetric, asymmetricB1, Folds, Fin.forall_fin_two] <;> omega) (by decide +kernel) asymmetric_shells.1 h hc hJ

/-- C96: Honeycomb lattice. -/
theorem C96_honeycomb_partial {Lx Ly : ℤ} (hx : 2 ≤ Lx) (hy : 2 ≤ Ly) {S : Spins 2 2 A} {avg : A →ₗ[ℂ] ℂ} (h : UniformState ![Lx, Ly] S avg)
    {chi : Fin 2 → Fin 2 → ℤ → ℂ} (hc : HoldsCorrelations ![Lx, Ly] S avg chi) {J : ℂ} (hJ : J ≠ 0) :
    (honeycomb Lx Ly).energy ![Lx, Ly] chi = some (2 / 3 * (perSite ![Lx, Ly] 2 avg (exchangeEnergy ![Lx, Ly] (honeycombGeo.neighbour 1) J S) / J)) :=
  energy_eq (by norm_num) (fun i => by fin_cases i <;> simp <;> omega) _ (by norm_num) (B := honeycombB1)
    (fun a b => by fin_cases a <;> fin_cases b <;> simp [honeycomb, honeycombB1, Folds, Fin.forall_fin_two] <;> omega) (by decide +kernel) honeycomb_shells.1 h hc hJ

/-- C96: Kagome lattice. -/
theorem C96_kagome_partial {Lx Ly : ℤ} (hx : 2 ≤ Lx) (hy : 2 ≤ Ly) {S : Spins 2 3 A} {avg : A →ₗ[ℂ] ℂ} (h : UniformState ![Lx, Ly] S avg)
    {chi : Fin 3 → Fin 3 → ℤ → ℂ} (hc : HoldsCorrelations ![Lx, Ly] S avg chi) {J : ℂ} (hJ : J ≠ 0) :
    (kagome Lx Ly).energy ![Lx, Ly] chi = some (2 / 3 * (perSite ![Lx, Ly] 3 avg (exchangeEnergy ![Lx, Ly] (kagomeGeo.neighbour 1) J S) / J)) :=
  energy_eq (by norm_num) (fun i => by fin_cases i <;> simp <;> omega) _ (by norm_num) (B := kagomeB1)
    (fun a b => by fin_cases a <;> fin_cases b <;> simp [kagome, kagomeB1, Folds, Fin.forall_fin_two] <;> omega) (by decide +kernel) kagome_shells.1 h hc hJ

/-- C96: Cubic lattice. -/
theorem C96_cubic_partial {Lx Ly Lz : ℤ} (hx : 2 ≤ Lx) (hy : 2 ≤ Ly) (hz : 2 ≤ Lz) {S : Spins 3 1 A} {avg : A →ₗ[ℂ] ℂ} (h : UniformState ![Lx, Ly, Lz] S avg)
    {chi : Fin 1 → Fin 1 → ℤ → ℂ} (hc : HoldsCorrelations ![Lx, Ly, Lz] S avg chi) {J : ℂ} (hJ : J ≠ 0) :
    (cubic Lx Ly Lz).energy ![Lx, Ly, Lz] chi = some (2 / 3 * (perSite ![Lx, Ly, Lz] 1 avg (exchangeEnergy ![Lx, Ly, Lz] (cubicGeo.neighbour 1) J S) / J)) :=
  energy_eq (by norm_num) (fun i => by fin_cases i <;> simp <;> omega) _ (by norm_num) (B := cubicB1)
    (fun a b => by fin_cases a <;> fin_cases b <;> simp [cubic, cubicB1, Folds, Fin.forall_fin_succ] <;> omega) (by decide +kernel) cubic_shells.1 h hc hJ

/-- C96: Cubic lattice with two sublattices. -/
theorem C96_checkerboard3_partial {Lx Ly Lz : ℤ} (hx : 2 ≤ Lx) (hy : 2 ≤ Ly) (hz : 2 ≤ Lz) {S : Spins 3 2 A} {avg : A →ₗ[ℂ] ℂ} (h : UniformState ![Lx, Ly, Lz] S avg)
    {chi : Fin 2 → Fin 2 → ℤ → ℂ} (hc : HoldsCorrelations ![Lx, Ly, Lz] S avg chi) {J : ℂ} (hJ : J ≠ 0) :
    (checkerboard3 Lx Ly Lz).energy ![Lx, Ly, Lz] chi = some (2 / 3 * (perSite ![Lx, Ly, Lz] 2 avg (exchangeEnergy ![Lx, Ly, Lz] (checkerboard3Geo.neighbour 1) J S) / J)) :=
  energy_eq (by norm_num) (fun i => by fin_cases i <;> simp <;> omega) _ (by norm_num) (B := checkerboard3B1)
    (fun a b => by fin_cases a <;> fin_cases b <;> simp [checkerboard3, checkerboard3B1, Folds, Fin.forall_fin_succ] <;> omega) (by decide +kernel) checkerboard3_shells.1 h hc hJ

/-- C96: Pyrochlore lattice. -/
theorem C96_pyrochlore_partial {Lx Ly Lz : ℤ} (hx : 2 ≤ Lx) (hy : 2 ≤ Ly) (hz : 2 ≤ Lz) {S : Spins 3 4 A} {avg : A →ₗ[ℂ] ℂ} (h : UniformState ![Lx, Ly, Lz] S avg)
    {chi : Fin 4 → Fin 4 → ℤ → ℂ} (hc : HoldsCorrelations ![Lx, Ly, Lz] S avg chi) {J : ℂ} (hJ : J ≠ 0) :
    (pyrochlore Lx Ly Lz).energy ![Lx, Ly, Lz] chi = some (2 / 3 * (perSite ![Lx, Ly, Lz] 4 avg (exchangeEnergy ![Lx, Ly, Lz] (pyrochloreGeo.neighbour 1) J S) / J)) :=
  energy_eq (by norm_num) (fun i => by fin_cases i <;> simp <;> omega) _ (by norm_num) (B := pyrochloreB1)
    (fun a b => by fin_cases a <;> fin_cases b <;> simp [pyrochlore, pyrochloreB1, Folds, Fin.forall_fin_succ] <;> omega) (by decide +kernel) pyrochlore_shells.1 h hc hJ


/-- C96: Chain. -/
theorem C96_chain_partial {Lx : ℤ} (hx : 2 ≤ Lx) {S : Spins 1 1 A} {avg : A →ₗ[ℂ] ℂ} (h : UniformState ![Lx] S avg)
    {chi : Fin 1 → Fin 1 → ℤ → ℂ} (hc : HoldsCorrelations ![Lx] S avg chi) {J : ℂ} (hJ : J ≠ 0) :
    ∃ t, chain Lx = some t ∧ t.energy ![Lx] chi = some (2 / 3 * (perSite ![Lx] 1 avg (exchangeEnergy ![Lx] (chainGeo.neighbour 1) J S) / J)) := by
  have key : ∀ t : Neighbours 1 1, (∀ a b, t.nn a b = [![1], ![Lx - 1]]) →
      t.energy ![Lx] chi = some (2 / 3 * (perSite ![Lx] 1 avg (exchangeEnergy ![Lx] (chainGeo.neighbour 1) J S) / J)) := fun t ht =>
    energy_eq (by norm_num) (fun i => by fin_cases i; simp; omega) t (by norm_num) (B := chainB1)
      (fun a b => by rw [ht]; simp [chainB1, Folds]; omega) (by decide +kernel) chain_shells.1 h hc hJ
  by_cases h2 : Lx > 2
  · exact ⟨_, by rw [chain, if_pos h2], key _ fun _ _ => rfl⟩
  · exact ⟨_, by rw [chain, if_neg h2, if_pos (by omega)], key _ fun _ _ => rfl⟩

/-- C96: lattice of valence bonds. The bonds between the rows of cells, which have the second coupling, are left out, and so is the additional coupling in the cell. -/
theorem C96_valence_partial {Lx Ly : ℤ} (hx : 2 ≤ Lx) (hy : 2 ≤ Ly) {S : Spins 2 2 A} {avg : A →ₗ[ℂ] ℂ} (h : UniformState ![Lx, Ly] S avg)
    {chi : Fin 2 → Fin 2 → ℤ → ℂ} (hc : HoldsCorrelations ![Lx, Ly] S avg chi) {J : ℂ} (hJ : J ≠ 0) :
    (valence Lx Ly).energy ![Lx, Ly] chi =
      some (2 / 3 * (perSite ![Lx, Ly] 2 avg (exchangeEnergy ![Lx, Ly] (fun a b v => valenceGeo.neighbour 1 a b v ∧ v 1 = 0) J S) / J)) :=
  energy_eq (by norm_num) (fun i => by fin_cases i <;> simp <;> omega) _ (by norm_num) (B := fun a b => (valenceB1 a b).filter (fun v => v 1 = 0))
    (fun a b => by fin_cases a <;> fin_cases b <;> simp [valence, valenceB1, Folds, Fin.forall_fin_two, List.filter] <;> omega) (by decide +kernel)
    (fun a b v => by rw [valence_shells.1, List.mem_filter]; simp) h hc hJ

/-- **C96** refuted: what is reported is the energy per site only if this is zero. -/
theorem C96_refuted_energy {Lx Ly : ℤ} (hx : 2 ≤ Lx) (hy : 2 ≤ Ly) {S : Spins 2 1 A} {avg : A →ₗ[ℂ] ℂ} (h : UniformState ![Lx, Ly] S avg)
    {chi : Fin 1 → Fin 1 → ℤ → ℂ} (hc : HoldsCorrelations ![Lx, Ly] S avg chi) {J : ℂ} (hJ : J ≠ 0) :
    (square Lx Ly).energy ![Lx, Ly] chi = some (perSite ![Lx, Ly] 1 avg (exchangeEnergy ![Lx, Ly] (squareGeo.neighbour 1) J S) / J) ↔
      perSite ![Lx, Ly] 1 avg (exchangeEnergy ![Lx, Ly] (squareGeo.neighbour 1) J S) = 0 := by
  rw [C96_square_partial hx hy h hc hJ, Option.some.injEq]
  generalize perSite ![Lx, Ly] 1 avg (exchangeEnergy ![Lx, Ly] (squareGeo.neighbour 1) J S) = e
  constructor
  · intro h
    have h1 : e / J = 0 := by linear_combination -3 * h
    exact (div_eq_zero_iff.1 h1).resolve_right hJ
  · rintro rfl
    simp

/-- C96: the sum rule. For spins one half the value reported as `SumRule` is one quarter. -/
theorem C96_sumRule {L : Fin d → ℤ} (hL : ∀ i, 0 < L i) {S : Spins d (n + 1) A} {avg : A →ₗ[ℂ] ℂ} (h : UniformState L S avg)
    {chi : Fin (n + 1) → Fin (n + 1) → ℤ → ℂ} (hc : HoldsCorrelations L S avg chi) (h2 : ∑ k, S 0 0 k * S 0 0 k = algebraMap ℂ A (3 / 4)) (h1 : avg 1 = 1) :
    sumRule chi = 1 / 4 := by
  have e := hc 0 0 0 (mem_cells.2 fun i => ⟨le_rfl, hL i⟩)
  have h0 : vec2Index (List.ofFn L) (List.ofFn (0 : Fin d → ℤ)) = 0 := by
    have hz : List.ofFn (0 : Fin d → ℤ) = List.replicate d 0 := by
      rw [List.eq_replicate_iff]
      simp
    rw [hz]
    exact vec2Index_zero _ _
  rw [h0] at e
  rw [sumRule, e]
  have h3 := congrArg avg h2
  rw [map_sum, Fin.sum_univ_three, h.isotropic 0 0 0 0, h.isotropic 0 0 0 1, Algebra.algebraMap_eq_smul_one, map_smul, h1, smul_eq_mul, mul_one] at h3
  linear_combination h3 / 3

/-- C96: if the magnetisation is conserved, so that its correlations do not depend on imaginary time, `Mag^2 density` is the average square of its third component over the
square of the number of sites. -/
theorem C96_magnetisation {L : Fin d → ℕ} (hL : ∀ i, 0 < L i) {N : ℕ} [NeZero N] (hn : 0 < n) (g : Geometry d n) {beta : ℚ} (hb : beta ≠ 0) (χ : Chi L N n)
    (f : Grid L N (Fin n → Fin n → ℂ)) (hχ : χ.Shows ⟨beta, true, true⟩ Phase.complex f) {S : Spins d n A} {avg : A →ₗ[ℂ] ℂ}
    (h : UniformState (fun i => (L i : ℤ)) S avg)
    (hf : ∀ t, ∑ a, ∑ b, ∑ r, f r t a b = ∑ a, ∑ b, ∑ r : ∀ i, Fin (L i), avg (S a 0 2 * S b (fun i => (r i : ℤ)) 2)) :
    magDensity g beta χ =
      avg (totalSpin (fun i => (L i : ℤ)) S 2 * totalSpin (fun i => (L i : ℤ)) S 2) / ((n * (cells fun i => (L i : ℤ)).card : ℕ) : ℂ) ^ 2 := by
  have hL' : ∀ i, (0 : ℤ) < (L i : ℤ) := fun i => by exact_mod_cast hL i
  have hcard : (cells fun i => (L i : ℤ)).card = ∏ i, L i := by simp [cells, Fintype.card_piFinset]
  have hvol : ((∏ i, L i : ℕ) : ℂ) ≠ 0 := by
    rw [Nat.cast_ne_zero, Finset.prod_ne_zero_iff]
    exact fun i _ => (hL i).ne'
  have hn' : (n : ℂ) ≠ 0 := by exact_mod_cast hn.ne'
  have hN : (N : ℂ) ≠ 0 := by exact_mod_cast NeZero.ne N
  have hb' : (beta : ℂ) ≠ 0 := by exact_mod_cast hb
  have hm : avg (totalSpin (fun i => (L i : ℤ)) S 2 * totalSpin (fun i => (L i : ℤ)) S 2) =
      ((∏ i, L i : ℕ) : ℂ) * ∑ a, ∑ b, ∑ r : ∀ i, Fin (L i), avg (S a 0 2 * S b (fun i => (r i : ℤ)) 2) := by
    have e : ∀ a b, ∑ r : ∀ i, Fin (L i), avg (S a 0 2 * S b (fun i => (r i : ℤ)) 2) = ∑ r ∈ cells (fun i => (L i : ℤ)), avg (S a 0 2 * S b r 2) := fun a b =>
      (sum_cells L fun r => avg (S a 0 2 * S b r 2)).symm
    simp only [e, totalSpin]
    rw [Finset.sum_mul, map_sum, Finset.mul_sum]
    refine Finset.sum_congr rfl fun a _ => ?_
    rw [Finset.mul_sum, map_sum, Finset.mul_sum]
    refine Finset.sum_congr rfl fun b _ => ?_
    rw [Finset.sum_mul, map_sum, ← hcard, ← nsmul_eq_mul, ← Finset.sum_const]
    refine Finset.sum_congr rfl fun r _ => ?_
    rw [Finset.mul_sum, map_sum, sum_cells_shift hL' (fun s => avg (S a r 2 * S b s 2)) (fun s s' hs => by rw [h.periodic b s s' hs]) r]
    exact Finset.sum_congr rfl fun v _ => h.translation a b r v 2
  have hu : unifChi g beta χ = (∑ a, ∑ b, ∑ r : ∀ i, Fin (L i), avg (S a 0 2 * S b (fun i => (r i : ℤ)) 2)) * beta / n := by
    rw [C68_uniform g beta hb hL χ f hχ]
    congr 1
    have e : ∑ a, ∑ b, ∑ r, ∑ t, f r t a b * ((beta / N : ℚ) : ℂ) = ∑ t, (∑ a, ∑ b, ∑ r, f r t a b) * ((beta / N : ℚ) : ℂ) := by
      simp only [Finset.sum_mul]
      rw [Finset.sum_comm]
      refine Eq.symm ?_
      rw [Finset.sum_comm]
      rw [Finset.sum_comm (s := Finset.univ (α := Fin n)) (t := Finset.univ (α := Fin n))]
      refine Finset.sum_congr rfl fun a _ => ?_
      rw [Finset.sum_comm]
      refine Finset.sum_congr rfl fun b _ => ?_
      rw [Finset.sum_comm]
    rw [e]
    simp only [hf]
    rw [Finset.sum_const, Finset.card_univ, Fintype.card_fin, nsmul_eq_mul]
    push_cast
    field_simp
  rw [magDensity, hu, hm, hcard]
  push_cast
  push_cast at hvol
  field_simp

/-- Two kinds of sites with independent signs. -/
noncomputable def flips : Spins 2 1 (Fin 2 → Fin 2 → ℂ) := fun _ r _ x y => if (r 0 + r 1) % 2 = 0 then (if x = 0 then 1 / 2 else -1 / 2) else (if y = 0 then 1 / 2 else -1 / 2)

/-- The average over the signs. -/
noncomputable def flipsAvg : (Fin 2 → Fin 2 → ℂ) →ₗ[ℂ] ℂ where
  toFun f := (∑ x, ∑ y, f x y) / 4
  map_add' f g := by simp [Fin.sum_univ_two]; ring
  map_smul' c f := by simp [Fin.sum_univ_two]; ring

theorem flips_corr (a b : Fin 1) (r s : Fin 2 → ℤ) (k : Fin 3) :
    flipsAvg (flips a r k * flips b s k) = if (r 0 + r 1 - (s 0 + s 1)) % 2 = 0 then 1 / 4 else 0 := by
  have e : flipsAvg (flips a r k * flips b s k) = (∑ x, ∑ y, flips a r k x y * flips b s k x y) / 4 := rfl
  rw [e]
  simp only [Fin.sum_univ_two, flips]
  rcases Int.emod_two_eq_zero_or_one (r 0 + r 1) with h1 | h1 <;> rcases Int.emod_two_eq_zero_or_one (s 0 + s 1) with h2 | h2
  · have h3 : (r 0 + r 1 - (s 0 + s 1)) % 2 = 0 := by omega
    simp [h1, h2, h3]; norm_num
  · have h3 : (r 0 + r 1 - (s 0 + s 1)) % 2 = 1 := by omega
    simp [h1, h2, h3]; norm_num
  · have h3 : (r 0 + r 1 - (s 0 + s 1)) % 2 = 1 := by omega
    simp [h1, h2, h3]; norm_num
  · have h3 : (r 0 + r 1 - (s 0 + s 1)) % 2 = 0 := by omega
    simp [h1, h2, h3]; norm_num

theorem flips_uniform : UniformState ![2, 2] flips flipsAvg where
  periodic a r r' h := by
    have h0 := h 0
    have h1 := h 1
    simp only [Int.ModEq, Matrix.cons_val_zero, Matrix.cons_val_one] at h0 h1
    have : (r 0 + r 1) % 2 = (r' 0 + r' 1) % 2 := by omega
    funext k x y
    simp only [flips, this]
  translation a b r v k := by
    rw [flips_corr, flips_corr]
    simp only [Pi.add_apply, Pi.zero_apply]
    congr 2
    omega
  isotropic a b r k := by rw [flips_corr, flips_corr]

/-- **C96** refuted: with a second coupling the energy is not determined by what is reported, whatever the units. In this state `Energy` is zero. -/
theorem C96_refuted_next (J1 J2 : ℂ) : ∃ (S : Spins 2 1 (Fin 2 → Fin 2 → ℂ)) (avg : (Fin 2 → Fin 2 → ℂ) →ₗ[ℂ] ℂ) (chi : Fin 1 → Fin 1 → ℤ → ℂ),
    UniformState ![2, 2] S avg ∧ HoldsCorrelations ![2, 2] S avg chi ∧ (square 2 2).energy ![2, 2] chi = some 0 ∧
      perSite ![2, 2] 1 avg (exchangeEnergy ![2, 2] (squareGeo.neighbour 1) J1 S + exchangeEnergy ![2, 2] (squareGeo.neighbour 2) J2 S) = 3 / 2 * J2 := by
  have hcard : (cells (![2, 2] : Fin 2 → ℤ)).card = 4 := by simp [cells, Fintype.card_piFinset, Fin.prod_univ_two]
  have n1 : ∀ a b, (squareB1 a b).Nodup := by decide +kernel
  have n2 : ∀ a b, (squareB2 a b).Nodup := by decide +kernel
  refine ⟨flips, flipsAvg, fun _ _ p => if p = 0 ∨ p = 3 then 1 / 4 else 0, flips_uniform, ?_, ?_, ?_⟩
  · intro a b r hr
    have hr := mem_cells.1 hr
    have h0 := hr 0
    have h1 := hr 1
    simp only [Matrix.cons_val_zero, Matrix.cons_val_one] at h0 h1
    rw [flips_corr]
    have e : vec2Index (List.ofFn ![2, 2]) (List.ofFn r) = r 0 * 2 + r 1 := by simp [vec2Index, List.ofFn_succ]
    rw [e]
    simp only [Pi.zero_apply]
    congr 1
    rw [eq_iff_iff]
    omega
  · simp [Neighbours.energy, Neighbours.pairs, square, energyLoop, npIndex, latVol, vec2Index, List.ofFn_succ, List.finRange_succ]
  · rw [perSite, map_add, exchange_uniform flips_uniform J1 n1 square_shells.1, exchange_uniform flips_uniform J2 n2 square_shells.2, hcard]
    simp [squareB1, squareB2, flips_corr]
    ring

/-! ## Examples -/

/-- Parallel classical spins, on a square lattice of any size: `Energy` is one, the energy per site is three halves of the coupling. -/
example {Lx Ly : ℤ} (hx : 2 ≤ Lx) (hy : 2 ≤ Ly) : let S : Spins 2 1 ℂ := fun _ _ _ => 1 / 2
    UniformState ![Lx, Ly] S LinearMap.id ∧ HoldsCorrelations ![Lx, Ly] S LinearMap.id (fun _ _ _ => 1 / 4) ∧
      (square Lx Ly).energy ![Lx, Ly] (fun _ _ _ => 1 / 4) = some 1 ∧
      perSite ![Lx, Ly] 1 LinearMap.id (exchangeEnergy ![Lx, Ly] (squareGeo.neighbour 1) 1 S) = 3 / 2 := by
  intro S
  have hS : UniformState ![Lx, Ly] S LinearMap.id := ⟨fun _ _ _ _ => rfl, fun _ _ _ _ _ => rfl, fun _ _ _ _ => rfl⟩
  have hc : HoldsCorrelations ![Lx, Ly] S LinearMap.id (fun _ _ _ => 1 / 4) := fun _ _ _ _ => by simp [S]; norm_num
  have n1 : ∀ a b, (squareB1 a b).Nodup := by decide +kernel
  have hcard : ((cells ![Lx, Ly]).card : ℂ) ≠ 0 := by
    rw [Nat.cast_ne_zero, Finset.card_ne_zero]
    exact ⟨0, mem_cells.2 fun i => by fin_cases i <;> simp <;> omega⟩
  have hp : perSite ![Lx, Ly] 1 LinearMap.id (exchangeEnergy ![Lx, Ly] (squareGeo.neighbour 1) 1 S) = 3 / 2 := by
    rw [perSite, exchange_uniform hS 1 n1 square_shells.1]
    simp [squareB1, S]
    field_simp
    norm_num
  refine ⟨hS, hc, ?_, hp⟩
  rw [C96_square_partial hx hy hS hc one_ne_zero, hp]
  norm_num

/-- One spin one half at infinite temperature. -/
example : ∃ (S : Spins 1 1 (Matrix (Fin 2) (Fin 2) ℂ)) (avg : Matrix (Fin 2) (Fin 2) ℂ →ₗ[ℂ] ℂ) (chi : Fin 1 → Fin 1 → ℤ → ℂ),
    UniformState ![1] S avg ∧ HoldsCorrelations ![1] S avg chi ∧ ∑ k, S 0 0 k * S 0 0 k = algebraMap ℂ _ (3 / 4) ∧ avg 1 = 1 ∧ sumRule chi = 1 / 4 := by
  let S : Spins 1 1 (Matrix (Fin 2) (Fin 2) ℂ) := fun _ _ k => (1 / 2 : ℂ) • pauli k
  let avg : Matrix (Fin 2) (Fin 2) ℂ →ₗ[ℂ] ℂ := (1 / 2 : ℂ) • Matrix.traceLinearMap (Fin 2) ℂ ℂ
  have hk : ∀ a b r s k, avg (S a r k * S b s k) = 1 / 4 := by
    intro a b r s k
    fin_cases k <;> simp [S, avg, pauli, Matrix.trace, Fin.sum_univ_two] <;> ring_nf <;> simp <;> norm_num
  have hS : UniformState ![1] S avg := ⟨fun _ _ _ _ => rfl, fun _ _ _ _ _ => rfl, fun a b r k => (hk a b 0 r k).trans (hk a b 0 r 2).symm⟩
  have hc : HoldsCorrelations ![1] S avg (fun _ _ _ => 1 / 4) := fun a b r _ => (hk a b 0 r 2).symm
  have h2 : ∑ k, S 0 0 k * S 0 0 k = algebraMap ℂ _ (3 / 4) := by
    ext i j
    fin_cases i <;> fin_cases j <;> simp [S, pauli, Fin.sum_univ_three, Matrix.algebraMap_matrix_apply] <;> ring_nf
  have h1 : avg 1 = 1 := by simp [avg]
  exact ⟨S, avg, _, hS, hc, h2, h1, C96_sumRule (fun i => by fin_cases i; simp) hS hc h2 h1⟩

/-- Parallel classical spins on two by two cells, with three time bins: the density is that of the third component, one quarter. -/
example : magDensity (N := 3) (L := ![2, 2]) squareGeo 1 ⟨fun _ _ _ _ => 1 / 4, false, false⟩ = 1 / 4 := by
  have h := C96_magnetisation (N := 3) (L := ![2, 2]) (fun i => by fin_cases i <;> simp) (by norm_num) squareGeo (beta := 1) one_ne_zero ⟨fun _ _ _ _ => 1 / 4, false, false⟩
    (fun _ _ _ _ => 1 / 4) (Kind.view_false _ _ _).symm (S := fun _ _ _ => (1 / 2 : ℂ)) (avg := LinearMap.id) ⟨fun _ _ _ _ => rfl, fun _ _ _ _ _ => rfl, fun _ _ _ _ => rfl⟩
    (fun t => by norm_num)
  rw [h]
  have hcard : (cells fun i => ((![2, 2] : Fin 2 → ℕ) i : ℤ)).card = 4 := by simp [cells, Fintype.card_piFinset, Fin.prod_univ_two]
  simp [totalSpin, hcard]
  norm_num

end

end Feyn
