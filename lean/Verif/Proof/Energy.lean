import Verif.Spec.Energy
import Verif.Proof.BondsLat
import Mathlib.Algebra.BigOperators.Field

/-!
# Energy of a spin model: proofs
-/

namespace Feyn

section
variable {d n : ℕ} {A : Type*} [Ring A] [Algebra ℂ A]

theorem mem_cells {L r : Fin d → ℤ} : r ∈ cells L ↔ ∀ i, 0 ≤ r i ∧ r i < L i := by simp [cells]

theorem energyLoop_eq {L : Fin d → ℤ} (hd : 0 < d) (hL : ∀ i, 0 < L i) (chi : Fin n → Fin n → ℤ → ℂ) (l : List (Fin n × Fin n × (Fin d → ℤ)))
    (hl : ∀ x ∈ l, ∀ i, 0 ≤ x.2.2 i ∧ x.2.2 i < L i) (x : ℂ) :
    energyLoop L chi x l = some (x + (l.map fun y => chi y.1 y.2.1 (vec2Index (List.ofFn L) (List.ofFn y.2.2)) / n).sum) := by
  induction l generalizing x with
  | nil => simp [energyLoop]
  | cons y l ih =>
    obtain ⟨i, j, e⟩ := y
    have he : ∀ i, 0 ≤ e i ∧ e i < L i := hl (i, j, e) (by simp)
    have hr := ((index_round_trip (latOk_ofFn hd hL)).1 _ (inLat_ofFn he))
    have hn : npIndex (latVol (List.ofFn L)) (vec2Index (List.ofFn L) (List.ofFn e)) = some (vec2Index (List.ofFn L) (List.ofFn e)) := by
      simp [npIndex, hr.1, hr.2.1]
    rw [energyLoop, hn]
    simp only
    rw [ih (fun x hx => hl x (List.mem_cons_of_mem _ hx)), List.map_cons, List.sum_cons, add_assoc]

theorem sum_pairs (t : Neighbours d n) (f : Fin n → Fin n → (Fin d → ℤ) → ℂ) :
    (t.pairs.map fun y => f y.1 y.2.1 y.2.2).sum = ∑ a, ∑ b, ((t.nn a b).map (f a b)).sum := by
  rw [Neighbours.pairs, List.flatMap, List.map_flatten, List.sum_flatten, List.map_map, List.map_map, ← List.ofFn_eq_map, List.sum_ofFn]
  refine Finset.sum_congr rfl fun a _ => ?_
  rw [Function.comp_apply, Function.comp_apply, List.flatMap, List.map_flatten, List.sum_flatten, List.map_map, List.map_map, ← List.ofFn_eq_map, List.sum_ofFn]
  refine Finset.sum_congr rfl fun b _ => ?_
  simp [Function.comp_def]

theorem mem_pairs {t : Neighbours d n} {x} (h : x ∈ t.pairs) : x.2.2 ∈ t.nn x.1 x.2.1 := by
  simp only [Neighbours.pairs, List.mem_flatMap, List.mem_map, List.mem_finRange, true_and] at h
  obtain ⟨i, j, e, he, rfl⟩ := h
  exact he

omit [Algebra ℂ A] in
theorem finsum_bonds {B : List (Fin d → ℤ)} (hB : B.Nodup) {p : (Fin d → ℤ) → Prop} (hp : ∀ v, p v ↔ v ∈ B) (f : (Fin d → ℤ) → A) :
    (∑ᶠ v : Fin d → ℤ, open scoped Classical in if p v then f v else 0) = (B.map f).sum := by
  classical
  have hs : Function.support (fun v => if p v then f v else 0) ⊆ ↑B.toFinset := by
    intro v hv
    simp only [List.coe_toFinset, Set.mem_ofPred_eq]
    rw [← hp]
    by_contra hc
    exact hv (by simp [hc])
  rw [finsum_eq_sum_of_support_subset _ hs, ← List.sum_toFinset _ hB]
  refine Finset.sum_congr rfl fun v hv => ?_
  rw [if_pos ((hp v).2 (by simpa using hv))]

theorem avg_list (avg : A →ₗ[ℂ] ℂ) {ι : Type*} (l : List ι) (f : ι → A) : avg (l.map f).sum = (l.map fun v => avg (f v)).sum := by
  rw [map_list_sum, List.map_map]
  rfl

/-- The exchange energy of a uniform state. -/
theorem exchange_uniform {L : Fin d → ℤ} {S : Spins d n A} {avg : A →ₗ[ℂ] ℂ} (h : UniformState L S avg) (J : ℂ) {B : Fin n → Fin n → List (Fin d → ℤ)}
    (hB : ∀ a b, (B a b).Nodup) {p : Fin n → Fin n → (Fin d → ℤ) → Prop} (hp : ∀ a b v, p a b v ↔ v ∈ B a b) :
    avg (exchangeEnergy L p J S) = (J / 2) * ((cells L).card * (3 * ∑ a, ∑ b, ((B a b).map fun v => avg (S a 0 2 * S b v 2)).sum)) := by
  have key : ∀ a b r v, avg (∑ k, S a r k * S b (r + v) k) = 3 * avg (S a 0 2 * S b v 2) := by
    intro a b r v
    rw [map_sum, Fin.sum_univ_three, h.translation, h.translation, h.translation, h.isotropic a b v 0, h.isotropic a b v 1]
    ring
  rw [exchangeEnergy, map_smul, smul_eq_mul, map_sum]
  congr 1
  rw [← nsmul_eq_mul, ← Finset.sum_const]
  refine Finset.sum_congr rfl fun r _ => ?_
  rw [map_sum, Finset.mul_sum]
  refine Finset.sum_congr rfl fun a _ => ?_
  rw [map_sum, Finset.mul_sum]
  refine Finset.sum_congr rfl fun b _ => ?_
  rw [finsum_bonds (hB a b) (hp a b), avg_list]
  simp only [key]
  rw [List.sum_map_mul_left]

/-- What is reported, in a uniform state. -/
theorem energy_eq {L : Fin d → ℤ} (hd : 0 < d) (hL : ∀ i, 0 < L i) (t : Neighbours d n) (hn : 0 < n) {B : Fin n → Fin n → List (Fin d → ℤ)}
    (h1 : ∀ a b, List.Forall₂ (Folds L) (t.nn a b) (B a b)) (hB : ∀ a b, (B a b).Nodup) {p : Fin n → Fin n → (Fin d → ℤ) → Prop} (hp : ∀ a b v, p a b v ↔ v ∈ B a b)
    {S : Spins d n A} {avg : A →ₗ[ℂ] ℂ} (h : UniformState L S avg) {chi : Fin n → Fin n → ℤ → ℂ} (hc : HoldsCorrelations L S avg chi) {J : ℂ} (hJ : J ≠ 0) :
    t.energy L chi = some (2 / 3 * (perSite L n avg (exchangeEnergy L p J S) / J)) := by
  have hm : ∀ x ∈ t.pairs, ∀ i, 0 ≤ x.2.2 i ∧ x.2.2 i < L i := fun x hx => Folds.mem (h1 _ _) (mem_pairs hx)
  have hcard : ((cells L).card : ℂ) ≠ 0 := by
    rw [Nat.cast_ne_zero, Finset.card_ne_zero]
    exact ⟨0, mem_cells.2 fun i => ⟨le_rfl, hL i⟩⟩
  have hn' : (n : ℂ) ≠ 0 := by exact_mod_cast hn.ne'
  have hl : ∀ a b, ((t.nn a b).map fun e => chi a b (vec2Index (List.ofFn L) (List.ofFn e)) / n).sum =
      ((B a b).map fun v => avg (S a 0 2 * S b v 2)).sum / n := by
    intro a b
    have h2 := h1 a b
    generalize t.nn a b = l at h2
    generalize B a b = B' at h2
    induction h2 with
    | nil => simp
    | @cons e v l B' hev _ ih =>
      have he : ∀ i, 0 ≤ e i ∧ e i < L i := fun i => ⟨(hev i).1, (hev i).2.1⟩
      have hp : S b e = S b v := h.periodic b e v fun i => ((hev.iff he).1 rfl i).symm
      rw [List.map_cons, List.map_cons, List.sum_cons, List.sum_cons, ih, hc a b e (mem_cells.2 he), hp, add_div]
  rw [Neighbours.energy, energyLoop_eq hd hL _ _ hm, sum_pairs t fun a b e => chi a b (vec2Index (List.ofFn L) (List.ofFn e)) / n, perSite, exchange_uniform h J hB hp, zero_add]
  simp only [hl]
  simp only [← Finset.sum_div]
  congr 1
  field_simp

end

end Feyn
