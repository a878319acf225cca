import Verif.Proof.Monitor
import Mathlib.Algebra.Order.BigOperators.Group.List

/-! Adjusting the reweighting factors: proofs. -/

namespace Feyn

set_option linter.unusedSectionVars false
set_option linter.unusedSimpArgs false

section
variable {Q F : Type} [Field Q] [LinearOrder Q] [IsStrictOrderedRing Q] [FloorRing Q] [Field F] [Algebra Q F]
variable {P : Params Q F} {m : Monitor Q F}

theorem valueAt_eq {l : List (Est Q Q)} {i : ℕ} (h : i < l.length) : valueAt l i = .ok (((l[i]?).map fun e => e.accu).getD 0) := by
  unfold valueAt
  rw [List.getElem?_eq_getElem h]
  rfl

theorem realAt_eq {l : List Q} {i : ℕ} (h : i < l.length) : realAt l i = .ok (l.getD i 0) := by
  unfold realAt
  rw [List.getElem?_eq_getElem h, List.getD_eq_getElem?_getD, List.getElem?_eq_getElem h]
  rfl

theorem anySmall_eq (l : List (Est Q Q)) (is : List ℕ) (h : ∀ i ∈ is, i < l.length) :
    ∃ b, anySmall l is = .ok b ∧ (b = false ↔ ∀ i ∈ is, ∀ e, l[i]? = some e → 1000 ≤ e.norm) := by
  induction is with
  | nil => exact ⟨false, rfl, by simp⟩
  | cons i is ih =>
    obtain ⟨b, e, hb⟩ := ih fun j hj => h j (by simp [hj])
    have hi := h i (by simp)
    unfold anySmall
    rw [List.getElem?_eq_getElem hi]
    simp only
    by_cases c : l[i].norm < 1000
    · refine ⟨true, by rw [if_pos c], ?_⟩
      constructor
      · intro q; cases q
      · intro q
        exact absurd (q i (by simp) _ (List.getElem?_eq_getElem hi)) (not_le.2 c)
    · refine ⟨b, by rw [if_neg c, e], hb.trans ?_⟩
      constructor
      · intro q j hj
        rcases List.mem_cons.1 hj with rfl | hj
        · intro e' he'
          rw [List.getElem?_eq_getElem hi] at he'
          cases he'
          exact not_lt.1 c
        · exact q j hj
      · intro q j hj
        exact q j (by simp [hj])

theorem zeroTest_false {x : Q} : zeroTest x = false ↔ 1 / 1000000000 ≤ |x| := by
  unfold zeroTest
  rw [decide_eq_false_iff_not, not_lt]

theorem tooFew_eq (h : m.phyE.length = P.maxOrd + 1) : ∃ b, tooFew P m = .ok b ∧ (b = false ↔ Enough P m) := by
  obtain ⟨b, e, hb⟩ := anySmall_eq m.phyE (List.range (P.maxOrd + 1)) fun i hi => by rw [h]; exact List.mem_range.1 hi
  have hb' : b = false ↔ ∀ i, i ≤ P.maxOrd → ∀ e, m.phyE[i]? = some e → 1000 ≤ e.norm := by
    rw [hb]
    constructor
    · intro q i hi; exact q i (List.mem_range.2 (by omega))
    · intro q i hi; exact q i (by have := List.mem_range.1 hi; omega)
  have he : Enough P m ↔ b = false ∧ 1000 ≤ m.polarE.norm ∧ zeroTest m.polarE.accu = false ∧ zeroTest m.sigmaE.accu = false ∧
      (P.runGamma3 = true → 1000 ≤ m.gammaGE.norm ∧ 1000 ≤ m.gammaWE.norm ∧ zeroTest m.gammaGE.accu = false ∧
        zeroTest m.gammaWE.accu = false) := by
    rw [hb']
    simp only [zeroTest_false]
    constructor
    · rintro ⟨a1, a2, a3, a4, a5, a6⟩
      exact ⟨a1, a2, a3, a4, fun q => ⟨(a5 q).1, (a6 q).1, (a5 q).2, (a6 q).2⟩⟩
    · rintro ⟨a1, a2, a3, a4, a5⟩
      exact ⟨a1, a2, a3, a4, fun q => ⟨(a5 q).1, (a5 q).2.2.1⟩, fun q => ⟨(a5 q).2.1, (a5 q).2.2.2⟩⟩
  rw [he]
  unfold tooFew
  rw [e]
  simp only [Res.ok_bind]
  cases b
  case true => exact ⟨true, rfl, by simp⟩
  simp only [Bool.false_eq_true, if_false, true_and]
  by_cases c1 : m.polarE.norm < 1000
  · exact ⟨true, by rw [if_pos c1], by simp [c1]⟩
  rw [if_neg c1]
  by_cases c2 : (zeroTest m.polarE.accu || zeroTest m.sigmaE.accu) = true
  · refine ⟨true, by rw [if_pos c2], ?_⟩
    rw [Bool.or_eq_true] at c2
    rcases c2 with c2 | c2 <;> simp [c2]
  rw [if_neg c2]
  simp only [Bool.or_eq_true, not_or, Bool.not_eq_true] at c2
  cases hr : P.runGamma3
  case false => exact ⟨false, by simp, by simp [c2.1, c2.2, not_lt.1 c1]⟩
  simp only [if_true]
  by_cases c3 : m.gammaGE.norm < 1000
  · exact ⟨true, by rw [if_pos c3], by simp [c3]⟩
  rw [if_neg c3]
  by_cases c4 : m.gammaWE.norm < 1000
  · exact ⟨true, by rw [if_pos c4], by simp [c4]⟩
  rw [if_neg c4]
  refine ⟨_, rfl, ?_⟩
  simp [c2.1, c2.2, not_lt.1 c1, not_lt.1 c3, not_lt.1 c4]

theorem adjustLoop_eq (hw : m.wormE.length = P.maxOrd + 1) (hp : m.phyE.length = P.maxOrd + 1) {t : List Q}
    (ht : P.maxOrd + 1 ≤ t.length) (n a : ℕ) (ha : a + n ≤ P.maxOrd + 1) (s : AdjLoop Q) (hs : P.maxOrd + 1 ≤ s.rw.length) :
    ∃ s', adjustLoop m t (m.wormAt 0 + m.phyAt 0) s (List.range' a n) = .ok s' ∧ s'.rw.length = s.rw.length ∧
      (∀ i, s'.rw.getD i 0 = if a ≤ i ∧ i < a + n then newFactor m t s.rw i else s.rw.getD i 0) ∧
      s'.worm = s.worm + ((List.range' a n).map m.wormAt).sum ∧ s'.phy = s.phy + ((List.range' a n).map m.phyAt).sum := by
  induction n generalizing a s with
  | zero => exact ⟨s, rfl, rfl, fun i => by rw [if_neg (by omega)], by simp, by simp⟩
  | succ n ih =>
    have e1 : valueAt m.wormE a = .ok (m.wormAt a) := valueAt_eq (by omega)
    have e2 : valueAt m.phyE a = .ok (m.phyAt a) := valueAt_eq (by omega)
    have e3 : realAt s.rw a = .ok (s.rw.getD a 0) := realAt_eq (by omega)
    have e4 : realAt t a = .ok (t.getD a 0) := realAt_eq (by omega)
    have key : adjustStep m t (m.wormAt 0 + m.phyAt 0) s a = .ok ⟨s.rw.set a (newFactor m t s.rw a),
        s.worm + m.wormAt a, s.phy + m.phyAt a⟩ := by
      unfold adjustStep newFactor
      simp only [e1, e2, e3, e4, Res.ok_bind, zeroTest, decide_eq_true_eq]
      split_ifs with c
      · congr 2
        rw [List.getD_eq_getElem?_getD, List.getElem?_eq_getElem (by omega)]
        simp
      · rfl
    obtain ⟨s', k1, k2, k3, k4, k5⟩ := ih (a + 1) (by omega) ⟨s.rw.set a (newFactor m t s.rw a),
        s.worm + m.wormAt a, s.phy + m.phyAt a⟩ (by simpa using hs)
    refine ⟨s', ?_, by rw [k2]; simp, fun i => ?_, ?_, ?_⟩
    · rw [List.range'_succ, adjustLoop, key]
      simp only [Res.ok_bind]
      exact k1
    · rw [k3]
      have hget : ∀ k, (s.rw.set a (newFactor m t s.rw a)).getD k 0 = if k = a then newFactor m t s.rw a else s.rw.getD k 0 := by
        intro k
        simp only [List.getD_eq_getElem?_getD, List.getElem?_set]
        by_cases q : a = k
        · subst q
          simp [show a < s.rw.length by omega]
        · simp [q, Ne.symm q]
      by_cases c : i = a
      · subst c
        rw [if_neg (by omega), if_pos (by omega)]
        simp only
        rw [hget, if_pos rfl]
      · have hnf : newFactor m t (s.rw.set a (newFactor m t s.rw a)) i = newFactor m t s.rw i := by
          have hcongr : ∀ l l' : List Q, l.getD i 0 = l'.getD i 0 → newFactor m t l i = newFactor m t l' i := by
            intro l l' q; unfold newFactor; rw [q]
          exact hcongr _ _ (by rw [hget, if_neg c])
        simp only
        rw [hnf, hget, if_neg c]
        by_cases q : a + 1 ≤ i ∧ i < a + 1 + n
        · rw [if_pos q, if_pos (by omega)]
        · rw [if_neg q, if_neg (by omega)]
    · rw [k4, List.range'_succ, List.map_cons, List.sum_cons, add_assoc]
    · rw [k5, List.range'_succ, List.map_cons, List.sum_cons, add_assoc]

end
end Feyn
