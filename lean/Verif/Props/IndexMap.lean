import Verif.Proof.IndexMap
import Verif.Spec.Weights
import Mathlib.Data.Rat.Floor

/-!
# Weight table addresses (C24) and time bins (C25)
-/

namespace Feyn
open IndexMap
variable {Q : Type} [Field Q] [LinearOrder Q] [IsStrictOrderedRing Q] [FloorRing Q] {m : IndexMap Q}

/-- **C24.** For legal spins, sites and times the index of a smooth function is computed without exception and lies inside a
table of the advertised shape, and two argument tuples share an index only if spins, sublattices, relative coordinates and
time bins agree. -/
theorem C24_smooth_index (h : m.Wf) {s1 s2 : ℤ} {a b : Site} {t1 t2 : Q} (hs1 : m.SpinOk s1) (hs2 : m.SpinOk s2)
    (ha : m.SiteOk a) (hb : m.SiteOk b) (ht1 : m.TauOk t1) (ht2 : m.TauOk t2) :
    ∃ i, m.smoothIndex s1 s2 a b t1 t2 = .ok i ∧ 0 ≤ i ∧
      i < m.sp * m.nsub * m.sp * m.nsub * latVol m.lat * (m.bins : ℤ) ∧
      ∀ {s1' s2' : ℤ} {a' b' : Site} {t1' t2' : Q}, m.SpinOk s1' → m.SpinOk s2' → m.SiteOk a' → m.SiteOk b' →
        m.TauOk t1' → m.TauOk t2' →
        (m.smoothIndex s1' s2' a' b' t1' t2' = .ok i ↔ s1' = s1 ∧ s2' = s2 ∧ a'.sub = a.sub ∧ b'.sub = b.sub ∧
          relCoord m.lat a' b' = relCoord m.lat a b ∧ m.tauIndex t1' t2' = m.tauIndex t1 t2) := by
  obtain ⟨hd, e⟩ := smoothIndex_eq h hs1 hs2 ha hb ht1 ht2
  obtain ⟨k1, k2⟩ := dot_range h.shape_pos h.fits' hd
  refine ⟨_, e, k1, by rw [← latVol_smooth]; exact k2, ?_⟩
  intro s1' s2' a' b' t1' t2' q1 q2 q3 q4 q5 q6
  obtain ⟨hd', e'⟩ := smoothIndex_eq h q1 q2 q3 q4 q5 q6
  rw [e', ← coord_eq_iff h q3 q4 ha hb]
  constructor
  · intro q
    have := dot_inj h.shape_pos h.fits' hd' hd (by injection q)
    simp only [List.cons.injEq, and_true] at this
    tauto
  · rintro ⟨rfl, rfl, k3, k4, k5, k6⟩
    rw [k3, k4, k5, k6]

omit [IsStrictOrderedRing Q] [FloorRing Q] in
/-- **C24**, functions that are instantaneous in time. -/
theorem C24_delta_index (h : m.Wf) {s1 s2 : ℤ} {a b : Site} (hs1 : m.SpinOk s1) (hs2 : m.SpinOk s2)
    (ha : m.SiteOk a) (hb : m.SiteOk b) :
    ∃ i, m.deltaIndex s1 s2 a b = .ok i ∧ 0 ≤ i ∧ i < m.sp * m.nsub * m.sp * m.nsub * latVol m.lat ∧
      ∀ {s1' s2' : ℤ} {a' b' : Site}, m.SpinOk s1' → m.SpinOk s2' → m.SiteOk a' → m.SiteOk b' →
        (m.deltaIndex s1' s2' a' b' = .ok i ↔ s1' = s1 ∧ s2' = s2 ∧ a'.sub = a.sub ∧ b'.sub = b.sub ∧
          relCoord m.lat a' b' = relCoord m.lat a b) := by
  obtain ⟨hd, e⟩ := deltaIndex_eq h hs1 hs2 ha hb
  obtain ⟨k1, k2⟩ := dot_range h.dshape_pos h.dfits hd
  refine ⟨_, e, k1, by rw [← latVol_delta]; exact k2, ?_⟩
  intro s1' s2' a' b' q1 q2 q3 q4
  obtain ⟨hd', e'⟩ := deltaIndex_eq h q1 q2 q3 q4
  rw [e', ← coord_eq_iff h q3 q4 ha hb]
  constructor
  · intro q
    have := dot_inj h.dshape_pos h.dfits hd' hd (by injection q)
    simp only [List.cons.injEq, and_true] at this
    tauto
  · rintro ⟨rfl, rfl, k3, k4, k5⟩
    rw [k3, k4, k5]

/-- The spin indices used by the two kinds of tables are legal and tell the spins apart. -/
theorem C24_spin_indices :
    (∀ s, 0 ≤ spinNum s ∧ spinNum s < 2) ∧ (∀ s s', spinNum s = spinNum s' → s = s') ∧
    (∀ s, 0 ≤ spinNum2 s ∧ spinNum2 s < 4) ∧ (∀ s s', spinNum2 s = spinNum2 s' → s = s') := by
  refine ⟨by decide, by decide, fun s => ?_, fun s s' => ?_⟩
  · unfold spinNum2 spinNum; split_ifs <;> omega
  · intro e
    funext d
    unfold spinNum2 spinNum at e
    cases d <;> cases h1 : s false <;> cases h2 : s true <;> cases h3 : s' false <;> cases h4 : s' true <;>
      simp_all

/-- Interaction tables of a 4 by 3 lattice with two sublattices and 5 bins. -/
def demoMap : IndexMap ℚ := ⟨2, 5, [4, 3], 2, 4, -1⟩

theorem demoMap_wf : demoMap.Wf := ⟨by simp [demoMap], by simp [demoMap], ⟨by simp [demoMap], by simp [demoMap]⟩, rfl,
  by simp [demoMap], by simp [demoMap], by decide⟩

example : demoMap.SpinOk 3 ∧ demoMap.SiteOk ⟨1, 3, 2⟩ ∧ demoMap.SiteOk ⟨0, 1, 0⟩ ∧ demoMap.TauOk (3 / 2) ∧ demoMap.TauOk 1 ∧
    demoMap.smoothIndex 3 2 ⟨1, 3, 2⟩ ⟨0, 1, 0⟩ (3 / 2) 1 = .ok 3638 := by
  refine ⟨by unfold SpinOk; simp [demoMap], ⟨.cons (by simp) (.cons (by simp) .nil), by simp [demoMap]⟩,
    ⟨.cons (by simp) (.cons (by simp) .nil), by simp [demoMap]⟩, by unfold TauOk; norm_num [demoMap],
    by unfold TauOk; norm_num [demoMap], by decide +kernel⟩

/-- **C25.** For every time difference of the window: the bin is in range; the bin is the one whose interval contains the
folded difference; adding `β` to a negative difference does not change the bin and, for antisymmetric functions, flips the
symmetry factor; the centre of a bin is in the bin; and a difference is at most half a bin away from the centre of its bin. -/
theorem C25_time_bins (h : m.Wf) :
    (∀ t, -m.beta ≤ t → t < m.beta → 0 ≤ m.tauIndex1 t ∧ m.tauIndex1 t < (m.bins : ℤ)) ∧
    (∀ t b, m.tauIndex1 t = b ↔
      (b : Q) * (m.beta / m.bins) ≤ foldTau m.beta t ∧ foldTau m.beta t < ((b : Q) + 1) * (m.beta / m.bins)) ∧
    (∀ t, -m.beta ≤ t → t < 0 → m.tauIndex1 (t + m.beta) = m.tauIndex1 t) ∧
    (∀ tin tout, -m.beta < tout - tin → tout - tin < 0 → m.sym = -1 →
      m.tauSym tin (tout + m.beta) = -m.tauSym tin tout ∧ m.tauSym tin (tout + m.beta) = 1) ∧
    (∀ b : ℤ, 0 ≤ b → b < (m.bins : ℤ) → m.tauIndex1 (m.indexToTau b) = b) ∧
    (∀ t, |foldTau m.beta t - m.indexToTau (m.tauIndex1 t)| ≤ (m.beta / m.bins) / 2) := by
  have hp := h.dBeta_pos
  have key : ∀ t b, m.tauIndex1 t = b ↔
      (b : Q) * m.dBeta ≤ foldTau m.beta t ∧ foldTau m.beta t < ((b : Q) + 1) * m.dBeta := by
    intro t b
    rw [tauIndex1_eq h, floor_bin h]; rfl
  refine ⟨fun t => tauIndex1_range h, key, ?_, ?_, ?_, ?_⟩
  · intro t h1 h2
    rw [tauIndex1_eq h t, if_pos h2, tauIndex1_eq h, if_neg (by linarith)]
  · intro tin tout h1 h2 hs
    unfold tauSym
    rw [if_pos (by linarith), if_neg (by linarith), hs]
    simp
  · intro b b0 b1
    have hb : (0 : Q) ≤ (b : Q) := by exact_mod_cast b0
    rw [key]
    unfold indexToTau foldTau
    have : 0 ≤ (b : Q) * m.dBeta := mul_nonneg hb hp.le
    rw [if_neg (by linarith)]
    constructor <;> nlinarith
  · intro t
    obtain ⟨k1, k2⟩ := (key t _).1 rfl
    unfold indexToTau
    change _ ≤ m.dBeta / 2
    rw [abs_le]
    constructor <;> nlinarith

/-- At the end of the window the symmetry factor does not flip: the factor of the time difference `-β` and that of `0` are
both `-1`. Differences of times in `[0, β)` never reach `-β`. -/
theorem C25_boundary : demoMap.tauSym 2 0 = -1 ∧ demoMap.tauSym 2 (0 + demoMap.beta) = -1 := by decide +kernel

/-- A difference in the last bin and its folded partner. -/
example : demoMap.tauIndex1 (-1 / 10) = 4 ∧ demoMap.tauIndex1 (-1 / 10 + demoMap.beta) = 4 ∧
    demoMap.indexToTau 4 = 9 / 5 ∧ demoMap.tauIndex1 (9 / 5) = 4 ∧ demoMap.tauSym 1 (9 / 10) = -1 := by decide +kernel

/-- **C24**: for all arguments whatsoever, an index that is returned lies inside the array; everything else raises `IndexInvalid`. -/
theorem C24_guard {Q : Type} [Field Q] [LinearOrder Q] [FloorRing Q] (m : IndexMap Q) (s1 s2 : ℤ) (a b : Site) (t1 t2 : Q) :
    (m.smoothIndex s1 s2 a b t1 t2 = .abort ∨ ∃ i, m.smoothIndex s1 s2 a b t1 t2 = .ok i ∧ 0 ≤ i ∧ i < m.sizeSmooth) ∧
    (m.deltaIndex s1 s2 a b = .abort ∨ ∃ i, m.deltaIndex s1 s2 a b = .ok i ∧ 0 ≤ i ∧ i < m.sizeDelta) := by
  unfold IndexMap.smoothIndex IndexMap.deltaIndex u32
  constructor
  · simp only
    split_ifs with h
    · exact .inl rfl
    · exact .inr ⟨_, rfl, Int.emod_nonneg _ (by norm_num), not_le.1 h⟩
  · simp only
    split_ifs with h
    · exact .inl rfl
    · exact .inr ⟨_, rfl, Int.emod_nonneg _ (by norm_num), not_le.1 h⟩

/-- Both cases occur: a spin number that is too large raises. -/
example : demoMap.smoothIndex 7 0 ⟨0, 0, 0⟩ ⟨0, 0, 0⟩ 0 0 = .abort ∧ demoMap.smoothIndex 0 0 ⟨0, 0, 0⟩ ⟨0, 0, 0⟩ 0 0 = .ok 0 := by decide +kernel

end Feyn
