import Verif.Proof.Worm
import Verif.Proof.WormG
import Verif.Proof.Tau
import Verif.Proof.Meas
import Verif.Proof.Order0
import Verif.Proof.Reconnect
import Verif.Proof.Add
import Verif.Proof.Del
import Verif.Proof.RLoop

/-! Every update, with its random choices, keeps a consistent diagram consistent. -/

namespace Feyn

set_option linter.unusedSectionVars false
set_option linter.unusedSimpArgs false

section
variable {Q F : Type} [Field Q] [LinearOrder Q] [IsStrictOrderedRing Q] [Field F]
variable {P : Params Q F} {d : Diag Q F}

theorem Inv.pickVer (h : Inv P d) (w : Word) : ∃ p, d.Ver.pick w = .ok p ∧ p ∈ d.Ver.live :=
  Bundle.pick_spec h.count.verWf (by have := h.count.ver; have := h.count.n_pos; omega) w

theorem Inv.pickG (h : Inv P d) (w : Word) : ∃ p, d.G.pick w = .ok p ∧ p ∈ d.G.live :=
  Bundle.pick_spec h.count.gWf (by have := h.count.g; have := h.count.n_pos; omega) w

theorem Inv.pickW (h : Inv P d) (w : Word) : ∃ p, d.W.pick w = .ok p ∧ p ∈ d.W.live :=
  Bundle.pick_spec h.count.wWf (by have := h.count.n_pos; omega) w

theorem createWorm_good (hP : P.Wf) (h : Inv P d) (o : Words) : Good P d (createWorm P o d) := by
  unfold createWorm
  by_cases c : d.order = 0 ∨ d.worm.exist = true
  · rw [if_pos c]; exact good_skip h
  rw [if_neg c]; simp only [not_or, Bool.not_eq_true] at c
  obtain ⟨w, e1, hw⟩ := h.pickW (o 0)
  obtain ⟨k, e2, hk⟩ := pickK_spec (o 1)
  obtain ⟨s, e3, hs⟩ := pickDSpin_spec (o 2)
  simp only [e1, e2, e3, Res.ok_bind]
  exact createWormCore_good hP h c.1 c.2 hw hk hs (urn_nonneg _)

theorem deleteWorm_good (hP : P.Wf) (h : Inv P d) (o : Words) : Good P d (deleteWorm P o d) := by
  unfold deleteWorm
  by_cases c : d.order = 0 ∨ d.worm.exist = false
  · rw [if_pos c]; exact good_skip h
  rw [if_neg c]; simp only [not_or, Bool.not_eq_false] at c
  exact deleteWormCore_good hP h c.1 c.2 (urn_nonneg _)

theorem moveWormG_good (hP : P.Wf) (h : Inv P d) (o : Words) : Good P d (moveWormG P o d) := by
  unfold moveWormG
  by_cases c : d.order = 0 ∨ d.worm.exist = false
  · rw [if_pos c]; exact good_skip h
  rw [if_neg c]; simp only [not_or, Bool.not_eq_false] at c
  obtain ⟨e, e1⟩ := pickDir_spec (o 0)
  simp only [e1, Res.ok_bind]
  exact moveWormGCore_good hP h c.1 c.2 (urn_nonneg _)

theorem moveWormW_good (hP : P.Wf) (h : Inv P d) (o : Words) : Good P d (moveWormW P o d) := by
  unfold moveWormW
  by_cases c : d.order = 0 ∨ d.worm.exist = false
  · rw [if_pos c]; exact good_skip h
  rw [if_neg c]; simp only [not_or, Bool.not_eq_false] at c
  exact moveWormWCore_good hP h c.1 c.2 (urn_nonneg _)

theorem reconnect_good (hP : P.Wf) (h : Inv P d) (o : Words) : Good P d (reconnect P o d) := by
  unfold reconnect
  by_cases c : d.order = 0 ∨ d.worm.exist = false
  · rw [if_pos c]; exact good_skip h
  rw [if_neg c]; simp only [not_or, Bool.not_eq_false] at c
  simp only [deref_live (h.worm.ira_mem c.2), deref_live (h.worm.masha_mem c.2), Res.ok_bind]
  by_cases c2 : d.co.r d.worm.ira ≠ d.co.r d.worm.masha
  · rw [if_pos c2]; exact good_skip h
  rw [if_neg c2]
  obtain ⟨e, e1⟩ := pickDir_spec (o 0)
  simp only [e1, Res.ok_bind]
  exact reconnectCore_good hP h c.1 c.2 (urn_nonneg _)

theorem addInteraction_good (hP : P.Wf) (h : Inv P d) (o : Words) : Good P d (addInteraction P o d) := by
  unfold addInteraction
  by_cases c : d.worm.exist = false
  · rw [if_pos c]; exact good_skip h
  rw [if_neg c]; simp only [Bool.not_eq_false] at c
  by_cases c2 : d.order = 0 ∨ d.order ≥ P.maxOrd
  · rw [if_pos c2]; exact good_skip h
  rw [if_neg c2]
  obtain ⟨k, e1, hk⟩ := pickK_spec (o 0)
  obtain ⟨e, e2⟩ := pickDir_spec (o 1)
  obtain ⟨f, e3⟩ := pickDir_spec (o 2)
  simp only [e1, e2, e3, Res.ok_bind]
  exact addCore_good hP h (by omega) (by omega) c hk (pickTau_in hP _) (pickTau_in hP _) (urn_nonneg _)

theorem addDelta_good (hP : P.Wf) (h : Inv P d) (o : Words) : Good P d (addDelta P o d) := by
  unfold addDelta
  by_cases c : d.worm.exist = false
  · rw [if_pos c]; exact good_skip h
  rw [if_neg c]; simp only [Bool.not_eq_false] at c
  by_cases c2 : d.order = 0 ∨ d.order ≥ P.maxOrd
  · rw [if_pos c2]; exact good_skip h
  rw [if_neg c2]
  obtain ⟨k, e1, hk⟩ := pickK_spec (o 0)
  obtain ⟨e, e2⟩ := pickDir_spec (o 1)
  obtain ⟨f, e3⟩ := pickDir_spec (o 2)
  simp only [e1, e2, e3, Res.ok_bind]
  exact addCore_good hP h (by omega) (by omega) c hk (pickTau_in hP _) (pickTau_in hP _) (urn_nonneg _)

theorem delInteraction_good (hP : P.Wf) (h : Inv P d) (o : Words) : Good P d (delInteraction P o d) := by
  unfold delInteraction
  by_cases c : d.worm.exist = false
  · rw [if_pos c]; exact good_skip h
  rw [if_neg c]; simp only [Bool.not_eq_false] at c
  by_cases c2 : d.order ≤ 1
  · rw [if_pos c2]; exact good_skip h
  rw [if_neg c2]
  obtain ⟨e, e2⟩ := pickDir_spec (o 0)
  simp only [e2, Res.ok_bind]
  exact delCore_good hP h (by omega) c (urn_nonneg _)

theorem delDelta_good (hP : P.Wf) (h : Inv P d) (o : Words) : Good P d (delDelta P o d) := by
  unfold delDelta
  by_cases c : d.worm.exist = false
  · rw [if_pos c]; exact good_skip h
  rw [if_neg c]; simp only [Bool.not_eq_false] at c
  by_cases c2 : d.order ≤ 1
  · rw [if_pos c2]; exact good_skip h
  rw [if_neg c2]
  obtain ⟨e, e2⟩ := pickDir_spec (o 0)
  simp only [e2, Res.ok_bind]
  exact delCore_good hP h (by omega) c (urn_nonneg _)

theorem changeTau_good (hP : P.Wf) (h : Inv P d) (o : Words) : Good P d (changeTau P o d) := by
  unfold changeTau
  by_cases c : d.order = 0 ∨ d.worm.exist = true
  · rw [if_pos c]; exact good_skip h
  rw [if_neg c]; simp only [not_or, Bool.not_eq_true] at c
  obtain ⟨v, e1, hv⟩ := h.pickVer (o 0)
  simp only [e1, Res.ok_bind]
  exact changeTauCore_good hP h c.1 hv (pickTau_in hP _) (urn_nonneg _)

theorem delta2cont_good (hP : P.Wf) (h : Inv P d) (o : Words) : Good P d (delta2cont P o d) := by
  unfold delta2cont
  by_cases c : d.order < 2 ∨ d.worm.exist = true
  · rw [if_pos c]; exact good_skip h
  rw [if_neg c]; simp only [not_or, Bool.not_eq_true] at c
  obtain ⟨w, e1, hw⟩ := h.pickW (o 0)
  simp only [e1, Res.ok_bind]
  exact delta2contCore_good hP h (by omega) hw (pickTau_in hP _) (urn_nonneg _)

theorem cont2delta_good (hP : P.Wf) (h : Inv P d) (o : Words) : Good P d (cont2delta P o d) := by
  unfold cont2delta
  by_cases c : d.order < 2 ∨ d.worm.exist = true
  · rw [if_pos c]; exact good_skip h
  rw [if_neg c]; simp only [not_or, Bool.not_eq_true] at c
  obtain ⟨w, e1, hw⟩ := h.pickW (o 0)
  simp only [e1, Res.ok_bind]
  exact cont2deltaCore_good hP h (by omega) hw (urn_nonneg _)

theorem g2w_good (hP : P.Wf) (h : Inv P d) (o : Words) : Good P d (g2w P o d) := by
  unfold g2w
  by_cases c : d.order = 0 ∨ d.worm.exist = true ∨ d.measG = false
  · rw [if_pos c]; exact good_skip h
  rw [if_neg c]; simp only [not_or, Bool.not_eq_true, Bool.not_eq_false] at c
  by_cases c2 : d.hasGamma ≠ 0
  · rw [if_pos c2]; exact good_skip h
  rw [if_neg c2]
  obtain ⟨w, e1, hw⟩ := h.pickW (o 0)
  simp only [e1, Res.ok_bind]
  exact g2wCore_good hP h c.1 c.2.2 (by omega) hw (urn_nonneg _)

theorem w2g_good (hP : P.Wf) (h : Inv P d) (o : Words) : Good P d (w2g P o d) := by
  unfold w2g
  by_cases c : d.order = 0 ∨ d.worm.exist = true ∨ d.measG = true
  · rw [if_pos c]; exact good_skip h
  rw [if_neg c]; simp only [not_or, Bool.not_eq_true] at c
  by_cases c2 : d.hasGamma ≠ 0
  · rw [if_pos c2]; exact good_skip h
  rw [if_neg c2]
  obtain ⟨w, e1, hw⟩ := h.pickG (o 0)
  simp only [e1, Res.ok_bind]
  exact w2gCore_good hP h c.1 c.2.2 (by omega) hw (urn_nonneg _)

theorem toOrder0_good (hP : P.Wf) (h : Inv P d) (o : Words) : Good P d (toOrder0 P o d) := by
  unfold toOrder0
  by_cases c : d.worm.exist = true ∨ d.order ≠ 1
  · rw [if_pos c]; exact good_skip h
  rw [if_neg c]; simp only [not_or, Bool.not_eq_true, not_not] at c
  by_cases c2 : d.hasGamma ≠ 0
  · rw [if_pos c2]; exact good_skip h
  rw [if_neg c2]
  exact toOrder0Core_good hP h c.2 c.1 (by omega)

theorem backToOrder1_good (hP : P.Wf) (h : Inv P d) (o : Words) : Good P d (backToOrder1 P o d) := by
  unfold backToOrder1
  by_cases c2 : d.hasGamma ≠ 0
  · rw [if_pos c2]; exact good_skip h
  rw [if_neg c2]
  by_cases c : d.worm.exist = true ∨ d.order ≠ 0
  · rw [if_pos c]; exact good_skip h
  rw [if_neg c]; simp only [not_or, Bool.not_eq_true, not_not] at c
  obtain ⟨r, e1, hr⟩ := pickSite_spec hP (o 0) (o 1) (o 2)
  obtain ⟨s1, e2⟩ := pickSpin_spec (o 5)
  obtain ⟨s2, e3⟩ := pickSpin_spec (o 6)
  simp only [e1, e2, e3, Res.ok_bind]
  exact backToOrder1Core_good hP h c.2 hr (pickTau_in hP _) (pickTau_in hP _) (urn_nonneg _)

theorem toGGGammaG_good (hP : P.Wf) (h : Inv P d) (o : Words) : GoodExt P d (toGGGammaG P o d) := by
  unfold toGGGammaG
  by_cases c : d.order = 0 ∨ d.worm.exist = true ∨ d.hasGamma ≠ 0
  · rw [if_pos c]; exact (good_skip h).goodExt
  rw [if_neg c]; simp only [not_or, Bool.not_eq_true, not_not] at c
  obtain ⟨w, e1, hw⟩ := h.pickG (o 0)
  simp only [e1, Res.ok_bind]
  exact toGGGammaGCore_good hP h c.1 c.2.2 hw (pickTau_in hP _) (urn_nonneg _)

theorem fromGGGammaG_good (hP : P.Wf) (h : Inv P d) (o : Words) : Good P d (fromGGGammaG P o d) := by
  unfold fromGGGammaG
  by_cases c : d.order = 0 ∨ d.worm.exist = true ∨ d.hasGamma ≠ 1
  · rw [if_pos c]; exact good_skip h
  rw [if_neg c]; simp only [not_or, Bool.not_eq_true, not_not] at c
  exact fromGGGammaGCore_good hP h c.1 c.2.2 (urn_nonneg _)

theorem toWWGammaW_good (hP : P.Wf) (h : Inv P d) (o : Words) : GoodExt P d (toWWGammaW P o d) := by
  unfold toWWGammaW
  by_cases c : d.order = 0 ∨ d.worm.exist = true ∨ d.hasGamma ≠ 0
  · rw [if_pos c]; exact (good_skip h).goodExt
  rw [if_neg c]; simp only [not_or, Bool.not_eq_true, not_not] at c
  obtain ⟨w, e1, hw⟩ := h.pickW (o 0)
  obtain ⟨r, e2, hr⟩ := pickSite_spec hP (o 2) (o 3) (o 4)
  simp only [e1, e2, Res.ok_bind]
  exact toWWGammaWCore_good hP h c.1 c.2.1 c.2.2 hw (pickTau_in hP _) hr (urn_nonneg _)

theorem fromWWGammaW_good (hP : P.Wf) (h : Inv P d) (o : Words) : Good P d (fromWWGammaW P o d) := by
  unfold fromWWGammaW
  by_cases c : d.order = 0 ∨ d.worm.exist = true ∨ d.hasGamma ≠ 2
  · rw [if_pos c]; exact good_skip h
  rw [if_neg c]; simp only [not_or, Bool.not_eq_true, not_not] at c
  exact fromWWGammaWCore_good hP h c.1 c.2.1 c.2.2 (urn_nonneg _)

theorem runOp_good (hP : P.Wf) (h : Inv P d) (op : Op) (o : Words) : GoodExt P d (runOp P op o d) := by
  cases op <;> simp only [runOp]
  · exact (createWorm_good hP h o).goodExt
  · exact (deleteWorm_good hP h o).goodExt
  · exact (moveWormG_good hP h o).goodExt
  · exact (moveWormW_good hP h o).goodExt
  · exact (reconnect_good hP h o).goodExt
  · exact (addInteraction_good hP h o).goodExt
  · exact (delInteraction_good hP h o).goodExt
  · exact (addDelta_good hP h o).goodExt
  · exact (delDelta_good hP h o).goodExt
  · exact (changeTau_good hP h o).goodExt
  · exact (good_skip h).goodExt
  · exact (changeRLoop_good hP h o).goodExt
  · exact (g2w_good hP h o).goodExt
  · exact (w2g_good hP h o).goodExt
  · exact (delta2cont_good hP h o).goodExt
  · exact (cont2delta_good hP h o).goodExt
  · exact (good_skip h).goodExt
  · exact (toOrder0_good hP h o).goodExt
  · exact (backToOrder1_good hP h o).goodExt
  · exact toGGGammaG_good hP h o
  · exact (fromGGGammaG_good hP h o).goodExt
  · exact toWWGammaW_good hP h o
  · exact (fromWWGammaW_good hP h o).goodExt

end
end Feyn
