import Verif.Proof.Lattice

/-!
# Lattice indices (C22, C23)
-/

namespace Feyn

/-- **C22.** On every lattice: a vector of the lattice goes to an index in `[0, Vol)` and back to itself, and an index in
`[0, Vol)` goes to a vector of the lattice and back to itself. -/
theorem C22_index_round_trip {size : List ℤ} (h : LatOk size) :
    (∀ v, InLat size v → 0 ≤ vec2Index size v ∧ vec2Index size v < latVol size ∧
      index2Vec size (vec2Index size v) = v) ∧
    (∀ i, 0 ≤ i → i < latVol size → InLat size (index2Vec size i) ∧ vec2Index size (index2Vec size i) = i) :=
  index_round_trip h

/-- A 4 by 3 by 5 lattice with a vector on its boundary. -/
example : LatOk [4, 3, 5] ∧ InLat [4, 3, 5] [3, 2, 4] ∧ vec2Index [4, 3, 5] [3, 2, 4] = 59 ∧ latVol [4, 3, 5] = 60 ∧
    index2Vec [4, 3, 5] 59 = [3, 2, 4] :=
  ⟨⟨by simp, by simp⟩, .cons (by simp) (.cons (by simp) (.cons (by simp) .nil)), by decide, by decide, by decide⟩

/-- **C23.** For sites of the lattice the relative index lies in `[0, Vol)`, is unchanged when both sites are translated by the
same vector, and distinguishes target coordinates. -/
theorem C23_relative_index {size : List ℤ} (h : LatOk size) {a b : List ℤ} (ha : InLat size a) (hb : InLat size b) :
    (0 ≤ coordiIndex size a b ∧ coordiIndex size a b < latVol size) ∧
    (∀ t, t.length = size.length → InLat size (translate size a t) ∧ InLat size (translate size b t) ∧
      coordiIndex size (translate size a t) (translate size b t) = coordiIndex size a b) ∧
    (∀ c, InLat size c → (coordiIndex size a b = coordiIndex size a c ↔ b = c)) := by
  refine ⟨?_, ?_, ?_⟩
  · have := (index_round_trip h).1 _ (shift_inLat hb ha)
    exact ⟨this.1, this.2.1⟩
  · intro t ht
    refine ⟨translate_inLat ha ht, translate_inLat hb ht, ?_⟩
    unfold coordiIndex
    rw [shift_translate hb ha ht]
  · intro c hc
    constructor
    · intro e
      exact shift_inj ha hb hc (vec2Index_inj h (shift_inLat hb ha) (shift_inLat hc ha) e)
    · rintro rfl; rfl

/-- Two sites of a 4 by 3 lattice with wrap-around in the first direction only. -/
example : InLat [4, 3] [3, 0] ∧ InLat [4, 3] [1, 2] ∧ coordiIndex [4, 3] [3, 0] [1, 2] = 8 ∧
    coordiIndex [4, 3] (translate [4, 3] [3, 0] [2, 5]) (translate [4, 3] [1, 2] [2, 5]) = 8 :=
  ⟨.cons (by simp) (.cons (by simp) .nil), .cons (by simp) (.cons (by simp) .nil), by decide, by decide⟩

/-- **C23**: `Shift` brings a vector that is at most one period away from the lattice, on either side, to the vector of the lattice that is congruent to it. -/
theorem C23_shift {size v : List ℤ} (hv : List.Forall₂ (fun s x => -s ≤ x ∧ x < 2 * s) size v) :
    InLat size (latShift size v) ∧ List.Forall₂ (fun s p => (p.1 : ℤ) % s = p.2 % s) size (List.zip (latShift size v) v) := by
  induction hv with
  | nil => exact ⟨.nil, .nil⟩
  | @cons s x size v hx _ ih =>
    have h1 : (0 ≤ shift1 s x ∧ shift1 s x < s) ∧ shift1 s x % s = x % s := by
      unfold shift1
      simp only
      by_cases h0 : x < 0
      · rw [if_pos h0]
        by_cases h2 : x + s ≥ s
        · omega
        · rw [if_neg h2]; exact ⟨by omega, Int.add_emod_right x s⟩
      · rw [if_neg h0]
        by_cases h2 : x ≥ s
        · rw [if_pos h2]; exact ⟨by omega, Int.sub_emod_right x s⟩
        · rw [if_neg h2]; exact ⟨by omega, rfl⟩
    exact ⟨.cons h1.1 ih.1, .cons h1.2 ih.2⟩

/-- A vector with an entry below the lattice, one inside and one at the upper end. -/
example : List.Forall₂ (fun s x : ℤ => -s ≤ x ∧ x < 2 * s) [4, 3, 5] [-4, 2, 5] ∧ latShift [4, 3, 5] [-4, 2, 5] = [0, 2, 0] :=
  ⟨.cons (by simp) (.cons (by simp) (.cons (by simp) .nil)), by decide⟩

end Feyn
