import Mathlib.GroupTheory.Perm.Cycle.Type
import Verif.Spec.Loops

/-! The sign of a permutation from the number of its orbits. -/

namespace Feyn

open Equiv.Perm Finset

section
variable {α : Type} [Fintype α] [DecidableEq α]

/-- The orbit of a point. -/
def orb (σ : Equiv.Perm α) (v : α) : Finset α := univ.filter (SameCycle σ v)

theorem orb_eq_iff (σ : Equiv.Perm α) (u v : α) : orb σ u = orb σ v ↔ SameCycle σ u v := by
  constructor
  · intro h
    have : v ∈ orb σ v := by simp [orb, SameCycle.refl]
    rw [← h] at this
    simpa [orb] using this
  · intro h
    ext x
    simp only [orb, mem_filter, mem_univ, true_and]
    exact ⟨h.symm.trans, h.trans⟩

theorem card_orb_support (σ : Equiv.Perm α) : (σ.support.image (orb σ)).card = Multiset.card σ.cycleType := by
  have h1 : σ.support.image (σ.cycleOf) = σ.cycleFactorsFinset := by
    ext c
    simp only [mem_image]
    constructor
    · rintro ⟨x, hx, rfl⟩
      exact cycleOf_mem_cycleFactorsFinset_iff.2 hx
    · intro hc
      obtain ⟨x, hx⟩ := (mem_cycleFactorsFinset_iff.1 hc).1.nonempty_support
      exact ⟨x, mem_cycleFactorsFinset_support_le hc hx, (cycle_is_cycleOf hx hc).symm⟩
  have h2 : σ.support.image (orb σ) = σ.cycleFactorsFinset.image support := by
    rw [← h1, image_image]
    refine image_congr fun x hx => ?_
    ext y
    have hx' : σ x ≠ x := mem_support.1 hx
    simp only [orb, mem_filter, mem_univ, true_and, Function.comp, mem_support_cycleOf_iff' hx']
  rw [h2, card_image_of_injOn, cycleType_def]
  · simp
  · intro c hc c' hc' e
    obtain ⟨x, hx⟩ := (mem_cycleFactorsFinset_iff.1 hc).1.nonempty_support
    have hx' : x ∈ c'.support := by
      have e' : c.support = c'.support := e
      rwa [← e']
    rw [cycle_is_cycleOf hx hc, cycle_is_cycleOf hx' hc']

theorem orb_fixed {σ : Equiv.Perm α} {v : α} (h : v ∉ σ.support) : orb σ v = {v} := by
  have h' : σ v = v := by simpa using h
  ext x
  simp only [orb, mem_filter, mem_univ, true_and, mem_singleton]
  constructor
  · rintro ⟨k, rfl⟩
    exact zpow_apply_eq_self_of_apply_eq_self h' k
  · rintro rfl
    exact SameCycle.refl _ _

/-- The number of orbits in a set that contains all moved points. -/
theorem card_orb (σ : Equiv.Perm α) {V : Finset α} (hV : σ.support ⊆ V) :
    (V.image (orb σ)).card + σ.support.card = V.card + Multiset.card σ.cycleType := by
  have h1 : V.image (orb σ) = σ.support.image (orb σ) ∪ (V \ σ.support).image (orb σ) := by
    rw [← image_union, union_sdiff_of_subset hV]
  have h2 : ((V \ σ.support).image (orb σ)).card = V.card - σ.support.card := by
    rw [card_image_of_injOn, card_sdiff_of_subset hV]
    intro x hx y hy e
    rw [coe_sdiff, Set.mem_sdiff] at hx hy
    have e' : orb σ x = orb σ y := e
    rw [orb_fixed hx.2, orb_fixed hy.2] at e'
    exact singleton_injective e'
  have h3 : Disjoint (σ.support.image (orb σ)) ((V \ σ.support).image (orb σ)) := by
    rw [disjoint_left]
    rintro S hS hS'
    obtain ⟨x, hx, rfl⟩ := mem_image.1 hS
    obtain ⟨y, hy, e⟩ := mem_image.1 hS'
    have hc := (orb_eq_iff σ y x).1 e
    exact (mem_sdiff.1 hy).2 ((SameCycle.mem_support_iff hc).2 hx)
  have h4 := card_le_card hV
  rw [h1, card_union_of_disjoint h3, h2, card_orb_support]
  omega

theorem sign_orb (σ : Equiv.Perm α) {V : Finset α} (hV : σ.support ⊆ V) (hc : Even V.card) :
    (Equiv.Perm.sign σ : ℤ) = (-1) ^ (V.image (orb σ)).card := by
  have h1 := card_orb σ hV
  have h2 : ((-1 : ℤ) ^ (V.image (orb σ)).card) * (-1) ^ σ.support.card = (-1) ^ Multiset.card σ.cycleType := by
    rw [← pow_add, h1, pow_add, hc.neg_one_pow, one_mul]
  rw [sign_of_cycleType, sum_cycleType]
  push_cast
  rw [pow_add, ← h2, mul_comm, mul_assoc, ← pow_add, Even.neg_one_pow ⟨_, rfl⟩, mul_one]

end

theorem iterate_perm {V : Finset ℕ} {s : Shape} {σ : Equiv.Perm (Fin MAX_BUNDLE)} (h : IsLoopPerm V s σ)
    (hn : ∀ v ∈ V, nextVertex s v ∈ V) (v : Fin MAX_BUNDLE) (hv : v.val ∈ V) (n : ℕ) :
    (nextVertex s)^[n] v.val = ((σ ^ n) v).val ∧ ((σ ^ n) v).val ∈ V := by
  induction n with
  | zero => exact ⟨rfl, hv⟩
  | succ n ih =>
    rw [Function.iterate_succ_apply', ih.1, pow_succ', Equiv.Perm.mul_apply, (h _).1 ih.2]
    exact ⟨rfl, hn _ ih.2⟩

theorem loopOf_eq {V : Finset ℕ} {s : Shape} {σ : Equiv.Perm (Fin MAX_BUNDLE)} (h : IsLoopPerm V s σ)
    (hn : ∀ v ∈ V, nextVertex s v ∈ V) (v : Fin MAX_BUNDLE) (hv : v.val ∈ V) :
    loopOf s v.val = Fin.val '' (orb σ v : Set (Fin MAX_BUNDLE)) := by
  ext u
  simp only [loopOf, Set.mem_ofPred_eq, Set.mem_image, mem_coe, orb, mem_filter, mem_univ, true_and]
  constructor
  · rintro ⟨n, rfl⟩
    exact ⟨(σ ^ n) v, ⟨n, by simp⟩, (iterate_perm h hn v hv n).1.symm⟩
  · rintro ⟨x, hx, rfl⟩
    obtain ⟨n, rfl⟩ := hx.exists_nat_pow_eq
    exact ⟨n, (iterate_perm h hn v hv n).1⟩

/-- The stored sign from the number of loops. -/
theorem sign_of_loops {V : Finset ℕ} {s : Shape} {sfl : ℤ} (h : SignOk V s sfl) (hV : ∀ v ∈ V, v < MAX_BUNDLE)
    (hn : ∀ v ∈ V, nextVertex s v ∈ V) (hc : Even V.card) :
    sfl = -(-1) ^ (fermiLoops V s).ncard := by
  obtain ⟨σ, hσ, rfl⟩ := h
  let VF : Finset (Fin MAX_BUNDLE) := univ.filter fun v => v.val ∈ V
  have hcard : VF.card = V.card := by
    refine card_bij (fun v _ => v.val) ?_ ?_ ?_
    · intro v hv; simpa [VF] using hv
    · intro a _ b _ e; exact Fin.ext e
    · intro v hv; exact ⟨⟨v, hV v hv⟩, by simpa [VF] using hv, rfl⟩
  have hsup : σ.support ⊆ VF := by
    intro v hv
    simp only [VF, mem_filter, mem_univ, true_and]
    by_contra hc
    exact mem_support.1 hv ((hσ v).2 hc)
  have hL : fermiLoops V s = (fun S : Finset (Fin MAX_BUNDLE) => Fin.val '' (S : Set (Fin MAX_BUNDLE))) ''
      (VF.image (orb σ) : Set (Finset (Fin MAX_BUNDLE))) := by
    ext S
    simp only [fermiLoops, Set.mem_ofPred_eq, Set.mem_image, coe_image]
    constructor
    · rintro ⟨v, hv, rfl⟩
      refine ⟨_, ⟨⟨v, hV v hv⟩, by simpa [VF] using hv, rfl⟩, (loopOf_eq hσ hn ⟨v, hV v hv⟩ hv).symm⟩
    · rintro ⟨_, ⟨v, hv, rfl⟩, rfl⟩
      have hv' : v.val ∈ V := by simpa [VF] using hv
      exact ⟨v.val, hv', (loopOf_eq hσ hn v hv').symm⟩
  rw [hL, Set.ncard_image_of_injective _ fun S S' e => by
    have := Set.image_injective.2 Fin.val_injective e
    exact coe_injective this, Set.ncard_coe_finset, sign_orb σ hsup (by rwa [hcard])]

end Feyn
