import Verif.Spec.IndexMap
import Verif.Proof.Lattice
import Mathlib.Tactic.FieldSimp
import Mathlib.Tactic.Linarith
import Mathlib.Algebra.Order.Floor.Ring

/-!
# Table addresses: proofs
-/

namespace Feyn
set_option linter.unusedSectionVars false

/-- Offset of an element: sum of digits times strides. -/
def dot (c d : List ℤ) : ℤ := (List.zipWith (fun c d => d * c) c d).sum

theorem updateCache_size {l : List ℤ} (h : ∀ s ∈ l, 0 < s) (hl : latVol l < 4294967296) : (updateCache l).2 = latVol l := by
  induction l with
  | nil => rfl
  | cons s l ih =>
    have hs : 0 < s := h s (List.mem_cons_self ..)
    have hp := latVol_pos fun x q => h x (List.mem_cons_of_mem s q)
    rw [latVol_cons] at hl ⊢
    have hl' : latVol l < 4294967296 := by nlinarith
    simp only [updateCache]
    rw [ih (fun x q => h x (List.mem_cons_of_mem s q)) hl', u32, mul_comm]
    exact Int.emod_eq_of_lt (by positivity) hl

theorem updateCache_tail {s : ℤ} {l : List ℤ} (h : ∀ x ∈ s :: l, 0 < x) (hl : latVol (s :: l) < 4294967296) :
    (∀ x ∈ l, 0 < x) ∧ latVol l < 4294967296 := by
  have hs : 0 < s := h s (List.mem_cons_self ..)
  have hq : ∀ x ∈ l, 0 < x := fun x q => h x (List.mem_cons_of_mem s q)
  have hp := latVol_pos hq
  rw [latVol_cons] at hl
  exact ⟨hq, by nlinarith⟩

theorem dot_range {l : List ℤ} (h : ∀ s ∈ l, 0 < s) (hl : latVol l < 4294967296) {d : List ℤ} (hd : InLat l d) :
    0 ≤ dot (updateCache l).1 d ∧ dot (updateCache l).1 d < latVol l := by
  induction hd with
  | nil => simp [dot, updateCache, latVol_nil]
  | @cons s x l d hx _ ih =>
    obtain ⟨h1, h2⟩ := updateCache_tail h hl
    obtain ⟨k1, k2⟩ := ih h1 h2
    have hp := latVol_pos h1
    have e : dot (updateCache (s :: l)).1 (x :: d) = x * latVol l + dot (updateCache l).1 d := by
      simp [dot, updateCache, updateCache_size h1 h2]
    rw [e, latVol_cons]
    constructor
    · nlinarith [hx.1]
    · nlinarith [hx.2]

theorem dot_inj {l : List ℤ} (h : ∀ s ∈ l, 0 < s) (hl : latVol l < 4294967296) {d d' : List ℤ} (hd : InLat l d)
    (hd' : InLat l d') (e : dot (updateCache l).1 d = dot (updateCache l).1 d') : d = d' := by
  induction hd generalizing d' with
  | nil => cases hd'; rfl
  | @cons s x l d hx q ih =>
    cases hd' with
    | @cons _ x' _ d' hx' hd' =>
      obtain ⟨h1, h2⟩ := updateCache_tail h hl
      have k := dot_range h1 h2 q
      have k' := dot_range h1 h2 hd'
      have e1 : ∀ (y : ℤ) (d : List ℤ), dot (updateCache (s :: l)).1 (y :: d) = y * latVol l + dot (updateCache l).1 d := by
        intro y d; simp [dot, updateCache, updateCache_size h1 h2]
      rw [e1, e1] at e
      have hp := latVol_pos h1
      have : x = x' := by
        rcases lt_trichotomy x x' with c | c | c
        · nlinarith
        · exact c
        · nlinarith
      subst this
      rw [ih h1 h2 hd' (by linarith)]

theorem relCoord_eq {l : List ℤ} {rin rout : Site} (h1 : InLat l rin.vec) (h2 : InLat l rout.vec) :
    latShift l (List.zipWith (fun a b => a - b) rout.vec rin.vec) = relCoord l rin rout := by
  revert h1 h2
  unfold Site.vec relCoord
  intro h1 h2
  cases h1 with
  | cons a h1 => cases h1 with
    | cons b h1 => cases h1 with
      | nil => cases h2 with
        | cons c h2 => cases h2 with
          | cons d h2 =>
            simp only [latShift, List.zipWith_cons_cons, List.zipWith_nil_right]
            rw [shift1_diff c a, shift1_diff d b]

theorem coordi_rel {l : List ℤ} {rin rout : Site} (h1 : InLat l rin.vec) (h2 : InLat l rout.vec) :
    coordiIndex l rin.vec rout.vec = vec2Index l (relCoord l rin rout) := by
  unfold coordiIndex
  rw [relCoord_eq h1 h2]

theorem relCoord_in {l : List ℤ} {rin rout : Site} (h1 : InLat l rin.vec) (h2 : InLat l rout.vec) :
    InLat l (relCoord l rin rout) := by
  rw [← relCoord_eq h1 h2]; exact shift_inLat h2 h1

namespace IndexMap
variable {Q : Type} [Field Q] [LinearOrder Q] {m : IndexMap Q}

theorem Wf.shape_pos (h : m.Wf) : ∀ s ∈ m.smoothShape, 0 < s := by
  have := latVol_pos h.lat.2
  have := h.nsub; have := h.sp; have := h.bins
  intro s hs
  simp only [smoothShape, List.mem_cons, List.not_mem_nil, or_false] at hs
  rcases hs with rfl | rfl | rfl | rfl | rfl | rfl <;> omega

theorem Wf.dshape_pos (h : m.Wf) : ∀ s ∈ m.deltaShape, 0 < s := by
  have := latVol_pos h.lat.2
  have := h.nsub; have := h.sp
  intro s hs
  simp only [deltaShape, List.mem_cons, List.not_mem_nil, or_false] at hs
  rcases hs with rfl | rfl | rfl | rfl | rfl <;> omega

theorem latVol_smooth (m : IndexMap Q) :
    latVol m.smoothShape = m.sp * m.nsub * m.sp * m.nsub * latVol m.lat * (m.bins : ℤ) := by
  simp only [smoothShape, latVol_cons, latVol_nil]; ring

theorem latVol_delta (m : IndexMap Q) : latVol m.deltaShape = m.sp * m.nsub * m.sp * m.nsub * latVol m.lat := by
  simp only [deltaShape, latVol_cons, latVol_nil]; ring

theorem Wf.delta_le (h : m.Wf) : latVol m.deltaShape ≤ latVol m.smoothShape := by
  have h1 := latVol_pos h.dshape_pos
  have h2 := h.bins
  rw [latVol_delta] at h1 ⊢
  rw [latVol_smooth]
  have : (1 : ℤ) ≤ (m.bins : ℤ) := by omega
  nlinarith

theorem Wf.fits' (h : m.Wf) : latVol m.smoothShape < 4294967296 := by rw [latVol_smooth]; exact h.fits
theorem Wf.dfits (h : m.Wf) : latVol m.deltaShape < 4294967296 := lt_of_le_of_lt h.delta_le h.fits'

theorem Wf.sizeSmooth_eq (h : m.Wf) : m.sizeSmooth = latVol m.smoothShape := updateCache_size h.shape_pos h.fits'
theorem Wf.sizeDelta_eq (h : m.Wf) : m.sizeDelta = latVol m.deltaShape := updateCache_size h.dshape_pos h.dfits

theorem smooth_sum (m : IndexMap Q) (a b c e f g : ℤ) :
    a * m.cs 0 + b * m.cs 1 + c * m.cs 2 + e * m.cs 3 + f * m.cs 4 + g =
      dot (updateCache m.smoothShape).1 [a, b, c, e, f, g] := by
  simp [cs, dot, updateCache, smoothShape, List.getD, add_assoc]

theorem delta_sum (m : IndexMap Q) (a b c e f : ℤ) :
    a * m.cd 0 + b * m.cd 1 + c * m.cd 2 + e * m.cd 3 + f = dot (updateCache m.deltaShape).1 [a, b, c, e, f] := by
  simp [cd, dot, updateCache, deltaShape, List.getD, add_assoc]

theorem coord_range (h : m.Wf) {rin rout : Site} (h1 : m.SiteOk rin) (h2 : m.SiteOk rout) :
    0 ≤ coordiIndex m.lat rin.vec rout.vec ∧ coordiIndex m.lat rin.vec rout.vec < latVol m.lat := by
  have := (index_round_trip h.lat).1 _ (shift_inLat h2.1 h1.1)
  exact ⟨this.1, this.2.1⟩

theorem coord_eq_iff (h : m.Wf) {a b a' b' : Site} (h1 : m.SiteOk a) (h2 : m.SiteOk b) (h3 : m.SiteOk a')
    (h4 : m.SiteOk b') :
    coordiIndex m.lat a.vec b.vec = coordiIndex m.lat a'.vec b'.vec ↔ relCoord m.lat a b = relCoord m.lat a' b' := by
  unfold coordiIndex
  rw [← relCoord_eq h1.1 h2.1, ← relCoord_eq h3.1 h4.1]
  exact ⟨fun e => vec2Index_inj h.lat (shift_inLat h2.1 h1.1) (shift_inLat h4.1 h3.1) e, fun e => by rw [e]⟩

section
variable [IsStrictOrderedRing Q]

theorem Wf.binsQ (h : m.Wf) : (0 : Q) < (m.bins : Q) := Nat.cast_pos.2 h.bins

theorem Wf.dBeta_pos (h : m.Wf) : 0 < m.dBeta := div_pos h.beta h.binsQ

theorem Wf.dBeta_mul (h : m.Wf) : (m.bins : Q) * m.dBeta = m.beta := by
  have := h.binsQ.ne'
  unfold dBeta
  field_simp

variable [FloorRing Q]

theorem tauIndex1_wrap (h : m.Wf) (t : Q) : ⌊(t + m.beta) * m.dBetaInv⌋ = ⌊t * m.dBetaInv⌋ + (m.bins : ℤ) := by
  have e : (t + m.beta) * m.dBetaInv = t * m.dBetaInv + ((m.bins : ℤ) : Q) := by
    have h1 := h.dBeta_pos.ne'
    have h2 := h.dBeta_mul
    unfold dBetaInv
    rw [← h2]
    push_cast
    field_simp
  rw [e, Int.floor_add_intCast]

/-- The time in `[0, β)` that a difference stands for. -/
theorem tauIndex1_eq (h : m.Wf) (t : Q) :
    m.tauIndex1 t = ⌊(if t < 0 then t + m.beta else t) * m.dBetaInv⌋ := by
  unfold tauIndex1
  split_ifs with c
  · rw [tauIndex1_wrap h]
  · rfl

theorem floor_bin (h : m.Wf) (t : Q) (b : ℤ) :
    ⌊t * m.dBetaInv⌋ = b ↔ (b : Q) * m.dBeta ≤ t ∧ t < ((b : Q) + 1) * m.dBeta := by
  have h1 := h.dBeta_pos
  rw [Int.floor_eq_iff]
  unfold dBetaInv
  rw [mul_one_div, le_div_iff₀ h1, div_lt_iff₀ h1]

theorem tauIndex1_range (h : m.Wf) {t : Q} (h1 : -m.beta ≤ t) (h2 : t < m.beta) :
    0 ≤ m.tauIndex1 t ∧ m.tauIndex1 t < (m.bins : ℤ) := by
  rw [tauIndex1_eq h]
  have hb := h.dBeta_pos
  have hm := h.dBeta_mul
  set s := if t < 0 then t + m.beta else t with hs
  have s0 : 0 ≤ s := by rw [hs]; split_ifs <;> linarith
  have s1 : s < m.beta := by rw [hs]; split_ifs <;> linarith
  constructor
  · apply Int.floor_nonneg.2
    exact mul_nonneg s0 (by unfold dBetaInv; positivity)
  · rw [Int.floor_lt]
    unfold dBetaInv
    rw [mul_one_div, div_lt_iff₀ hb]
    push_cast
    rw [hm]
    exact s1

theorem tauIndex_range (h : m.Wf) {t1 t2 : Q} (h1 : m.TauOk t1) (h2 : m.TauOk t2) :
    0 ≤ m.tauIndex t1 t2 ∧ m.tauIndex t1 t2 < (m.bins : ℤ) := by
  obtain ⟨a, b⟩ := h1
  obtain ⟨c, d⟩ := h2
  exact tauIndex1_range h (by linarith) (by linarith)

theorem smoothIndex_eq (h : m.Wf) {s1 s2 : ℤ} {a b : Site} {t1 t2 : Q} (hs1 : m.SpinOk s1) (hs2 : m.SpinOk s2)
    (ha : m.SiteOk a) (hb : m.SiteOk b) (ht1 : m.TauOk t1) (ht2 : m.TauOk t2) :
    InLat m.smoothShape [s1, a.sub, s2, b.sub, coordiIndex m.lat a.vec b.vec, m.tauIndex t1 t2] ∧
    m.smoothIndex s1 s2 a b t1 t2 =
      .ok (dot (updateCache m.smoothShape).1 [s1, a.sub, s2, b.sub, coordiIndex m.lat a.vec b.vec, m.tauIndex t1 t2]) := by
  have hd : InLat m.smoothShape [s1, a.sub, s2, b.sub, coordiIndex m.lat a.vec b.vec, m.tauIndex t1 t2] :=
    .cons hs1 (.cons ha.2 (.cons hs2 (.cons hb.2 (.cons (coord_range h ha hb) (.cons (tauIndex_range h ht1 ht2) .nil)))))
  refine ⟨hd, ?_⟩
  obtain ⟨k1, k2⟩ := dot_range h.shape_pos h.fits' hd
  unfold smoothIndex
  simp only [smooth_sum, u32, h.sizeSmooth_eq]
  rw [Int.emod_eq_of_lt k1 (lt_trans k2 h.fits'), if_neg (by omega)]

end

theorem deltaIndex_eq (h : m.Wf) {s1 s2 : ℤ} {a b : Site} (hs1 : m.SpinOk s1) (hs2 : m.SpinOk s2)
    (ha : m.SiteOk a) (hb : m.SiteOk b) :
    InLat m.deltaShape [s1, a.sub, s2, b.sub, coordiIndex m.lat a.vec b.vec] ∧
    m.deltaIndex s1 s2 a b =
      .ok (dot (updateCache m.deltaShape).1 [s1, a.sub, s2, b.sub, coordiIndex m.lat a.vec b.vec]) := by
  have hd : InLat m.deltaShape [s1, a.sub, s2, b.sub, coordiIndex m.lat a.vec b.vec] :=
    .cons hs1 (.cons ha.2 (.cons hs2 (.cons hb.2 (.cons (coord_range h ha hb) .nil))))
  refine ⟨hd, ?_⟩
  obtain ⟨k1, k2⟩ := dot_range h.dshape_pos h.dfits hd
  unfold deltaIndex
  simp only [delta_sum, u32, h.sizeDelta_eq]
  rw [Int.emod_eq_of_lt k1 (lt_trans k2 h.dfits), if_neg (by omega)]

end IndexMap
end Feyn
