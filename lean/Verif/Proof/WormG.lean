import Verif.Proof.Worm

/-! # Moving a worm end along a fermion line preserves consistency -/

set_option linter.unusedSectionVars false
set_option linter.unusedSimpArgs false

namespace Feyn
variable {Q F : Type} [Field Q] [LinearOrder Q] [IsStrictOrderedRing Q] [Field F]

/-- Incidence between vertices and fermion lines. -/
theorem TopoOk.vG_eq_iff {V G W : Finset ℕ} {s : Shape} (h : TopoOk V G W s) {v g : ℕ} (hv : v ∈ V)
    (hg : g ∈ G) (e : Dir) : s.vG v e = g ↔ v = s.gV g (!e) := by
  constructor
  · rintro rfl; exact (h.gV_vG v hv e).symm
  · rintro rfl
    have := h.vG_gV g hg (!e)
    rwa [Bool.not_not] at this

theorem TopoOk.vW_eq_iff {V G W : Finset ℕ} {s : Shape} (h : TopoOk V G W s) {v w : ℕ} (hv : v ∈ V)
    (hw : w ∈ W) : s.vW v = w ↔ ∃ e, v = s.wV w e := by
  constructor
  · rintro rfl; exact ⟨_, (h.wV_vW v hv).symm⟩
  · rintro ⟨e, rfl⟩; exact h.vW_wV w hw e

/-- The two ends of the interaction line of `v` are `v` and the far end. -/
theorem TopoOk.wV_cases {V G W : Finset ℕ} {s : Shape} (h : TopoOk V G W s) {v : ℕ} (hv : v ∈ V) (e : Dir) :
    s.wV (s.vW v) e = v ∨ s.wV (s.vW v) e = s.wV (s.vW v) (!s.vDir v) := by
  have h1 := h.wV_vW v hv
  by_cases he : e = s.vDir v
  · left; rw [he, h1]
  · right; congr 1; revert he; cases e <;> cases s.vDir v <;> simp

theorem TopoOk.far_ne {V G W : Finset ℕ} {s : Shape} (h : TopoOk V G W s) {v : ℕ} (hv : v ∈ V) :
    s.wV (s.vW v) (!s.vDir v) ≠ v := by
  intro e
  have := h.vDir_wV _ (h.vW_mem v hv) (!s.vDir v)
  rw [e] at this
  revert this; cases s.vDir v <;> simp

theorem moveWormGCore_good {P : Params Q F} (hP : P.Wf) {d : Diag Q F} (h : Inv P d)
    (ho : d.order ≠ 0) (hw : d.worm.exist = true) {dir : Dir} {u : Q} (hu : 0 ≤ u) :
    Good P d (moveWormGCore P d dir u) := by
  have hI := h.worm.ira_mem hw
  have hM := h.worm.masha_mem hw
  have hg := h.topo.vG_mem _ hI dir
  have hv2 := h.topo.gV_mem _ hg dir
  have hvI := h.topo.gV_mem _ hg IN
  have hw1 := h.topo.vW_mem _ hI
  have hw2 := h.topo.vW_mem _ hv2
  have hvW1 := h.topo.wV_mem _ hw1 (!d.sh.vDir d.worm.ira)
  have hvW2 := h.topo.wV_mem _ hw2 (!d.sh.vDir (d.sh.gV (d.sh.vG d.worm.ira dir) dir))
  unfold moveWormGCore
  simp only [deref_live hI, deref_live hM, deref_live hg, deref_live hv2, deref_live hvI, deref_live hw1,
    deref_live hw2, deref_live hvW1, deref_live hvW2, Res.ok_bind, if_true]
  by_cases c0 : d.sh.gV (d.sh.vG d.worm.ira dir) dir = d.worm.ira ∨
      d.sh.gV (d.sh.vG d.worm.ira dir) dir = d.worm.masha ∨ canNotMoveG d.worm.dSpin
      (d.co.spin (d.sh.gV (d.sh.vG d.worm.ira dir) IN) OUT) dir = true
  · rw [if_pos c0]; exact good_skip h
  rw [if_neg c0]
  have hkW : InK (subK (d.mo.gK (d.sh.vG d.worm.ira dir)) (mulK (sgn dir) d.worm.k)) :=
    subK_in (h.ghash.mem _ hg) (mulK_sgn_in _ (h.worm.k_in hw))
  obtain ⟨occ, eocc, hocc⟩ := gHashCheck_spec d.mo.gHash hkW
  simp only [eocc, Res.ok_bind]
  cases occ
  swap
  · exact good_skip h
  simp only [Bool.false_eq_true, if_false]
  have hkf := hocc rfl
  have hgI := h.topo.gV_vG _ hI dir
  have hfar1 := h.topo.far_ne hI
  have hfar2 := h.topo.far_ne hv2
  have hcase1 := h.topo.wV_cases hI
  have hcase2 := h.topo.wV_cases hv2
  have eI := h.topo.wV_vW _ hI
  have e2 := h.topo.wV_vW _ hv2
  have hdm1 : d.fl.wDelta (d.sh.vW d.worm.ira) = true → d.fl.wMeas (d.sh.vW d.worm.ira) = false :=
    fun e => (h.delta _ hw1 e).1
  have hL1 := fun sp => wW_line h.topo hI P d.ext d.co.r d.co.tau sp
    (if d.sh.wV (d.sh.vW d.worm.ira) (!d.sh.vDir d.worm.ira) = d.sh.gV (d.sh.vG d.worm.ira dir) dir then true
      else d.worm.isWorm (d.sh.wV (d.sh.vW d.worm.ira) (!d.sh.vDir d.worm.ira)))
    _ _ (d.fl.wGam (d.sh.vW d.worm.ira)) hdm1
  generalize hgn : d.sh.vG d.worm.ira dir = g at *
  generalize hvn : d.sh.gV g dir = v2 at *
  have hdm2 : d.fl.wDelta (d.sh.vW v2) = true → d.fl.wMeas (d.sh.vW v2) = false :=
    fun e => (h.delta _ hw2 e).1
  have hL2 := fun sp => wW_line h.topo hv2 P d.ext d.co.r d.co.tau sp true
    _ _ (d.fl.wGam (d.sh.vW v2)) hdm2
  push Not at c0
  obtain ⟨c0, c0', -⟩ := c0
  set spinV1 : Dir → Spin := fun e => if e = dir then !d.co.spin d.worm.ira e else d.co.spin d.worm.ira e
    with hs1
  set spinV2 : Dir → Spin := fun e => if e = !dir then !d.co.spin v2 e else d.co.spin v2 e with hs2
  -- the new spins
  set sp : ℕ → Dir → Spin := upd (upd d.co.spin d.worm.ira spinV1) v2 spinV2 with hsp
  have spI : sp d.worm.ira = spinV1 := by rw [hsp, upd_ne _ _ c0.symm, upd_same]
  have sp2 : sp v2 = spinV2 := by rw [hsp, upd_same]
  have spo : ∀ v, v ≠ d.worm.ira → v ≠ v2 → sp v = d.co.spin v := by
    intro v h1 h2; rw [hsp, upd_ne _ _ h2, upd_ne _ _ h1]
  have hv2g : d.sh.vG v2 (!dir) = g := by
    rw [← hvn]; exact h.topo.vG_gV g hg dir
  have spv : ∀ v ∈ d.Ver.live, ∀ e, sp v e = if d.sh.vG v e = g then !d.co.spin v e else d.co.spin v e := by
    intro v hv e
    simp only [h.topo.vG_eq_iff hv hg]
    by_cases h1 : v = d.worm.ira
    · subst h1
      rw [spI]
      by_cases he : e = dir
      · subst he; simp [spinV1, hgI]
      · have hee : (!e) = dir := by revert he; cases e <;> cases dir <;> simp
        rw [if_neg (by rw [hee, hvn]; exact c0.symm)]; simp [spinV1, he]
    · by_cases h2 : v = v2
      · subst h2
        rw [sp2]
        by_cases he : e = !dir
        · subst he; simp [spinV2, hvn]
        · have hee : e = dir := by revert he; cases e <;> cases dir <;> simp
          rw [if_neg (by rw [hee, hgI]; exact h1)]; simp [spinV2, he]
      · rw [spo v h1 h2, if_neg]
        rintro rfl
        by_cases he : e = dir
        · subst he; exact h1 hgI
        · have hee : (!e) = dir := by revert he; cases e <;> cases dir <;> simp
          apply h2; rw [hee]; exact hvn
  -- weights
  have hG := gW_line d.sh g dir P d.ext d.co.r d.co.tau sp (d.fl.gMeas g) (d.fl.gGam g)
  rw [hgI, hvn, spI, sp2] at hG
  have hs1d : spinV1 dir = !d.co.spin d.worm.ira dir := by simp [spinV1]
  have hs2d : spinV2 (!dir) = !d.co.spin v2 (!dir) := by simp [spinV2]
  rw [hs1d, hs2d] at hG
  rw [hG]
  have hL1' := hL1 sp
  have hL2' := hL2 sp
  rw [spI] at hL1'
  rw [sp2] at hL2'
  have hw1w2 : d.sh.vW d.worm.ira = d.sh.vW v2 ↔ d.sh.wV (d.sh.vW d.worm.ira) (!d.sh.vDir d.worm.ira) = v2 := by
    constructor
    · intro e
      have := hcase1 (d.sh.vDir v2)
      rw [e, e2] at this
      rcases this with h3 | h3
      · exact absurd h3 c0
      · rw [e]; exact h3.symm
    · intro e
      rw [← h.topo.vW_wV _ hw1 (!d.sh.vDir d.worm.ira), e]
  have hL1'' : wW P d.ext (d.sh.vDir d.worm.ira) (d.co.r d.worm.ira)
      (d.co.r (d.sh.wV (d.sh.vW d.worm.ira) (!d.sh.vDir d.worm.ira))) (d.co.tau d.worm.ira)
      (d.co.tau (d.sh.wV (d.sh.vW d.worm.ira) (!d.sh.vDir d.worm.ira))) spinV1
      (d.co.spin (d.sh.wV (d.sh.vW d.worm.ira) (!d.sh.vDir d.worm.ira)))
      (if d.sh.wV (d.sh.vW d.worm.ira) (!d.sh.vDir d.worm.ira) = v2 then true
        else d.worm.isWorm (d.sh.wV (d.sh.vW d.worm.ira) (!d.sh.vDir d.worm.ira)))
      (d.fl.wMeas (d.sh.vW d.worm.ira)) (d.fl.wDelta (d.sh.vW d.worm.ira)) (d.fl.wGam (d.sh.vW d.worm.ira)) =
      wW P d.ext (d.sh.vDir d.worm.ira) (d.co.r d.worm.ira)
      (d.co.r (d.sh.wV (d.sh.vW d.worm.ira) (!d.sh.vDir d.worm.ira))) (d.co.tau d.worm.ira)
      (d.co.tau (d.sh.wV (d.sh.vW d.worm.ira) (!d.sh.vDir d.worm.ira))) spinV1
      (sp (d.sh.wV (d.sh.vW d.worm.ira) (!d.sh.vDir d.worm.ira)))
      (if d.sh.wV (d.sh.vW d.worm.ira) (!d.sh.vDir d.worm.ira) = v2 then true
        else d.worm.isWorm (d.sh.wV (d.sh.vW d.worm.ira) (!d.sh.vDir d.worm.ira)))
      (d.fl.wMeas (d.sh.vW d.worm.ira)) (d.fl.wDelta (d.sh.vW d.worm.ira)) (d.fl.wGam (d.sh.vW d.worm.ira)) := by
    by_cases e : d.sh.wV (d.sh.vW d.worm.ira) (!d.sh.vDir d.worm.ira) = v2
    · simp only [e, if_true, wW]
    · rw [spo _ hfar1 e]
  rw [hL1'', hL1']
  have hL2'' : wW P d.ext (d.sh.vDir v2) (d.co.r v2)
      (d.co.r (d.sh.wV (d.sh.vW v2) (!d.sh.vDir v2))) (d.co.tau v2)
      (d.co.tau (d.sh.wV (d.sh.vW v2) (!d.sh.vDir v2))) spinV2
      (d.co.spin (d.sh.wV (d.sh.vW v2) (!d.sh.vDir v2))) true
      (d.fl.wMeas (d.sh.vW v2)) (d.fl.wDelta (d.sh.vW v2)) (d.fl.wGam (d.sh.vW v2)) =
      wW P d.ext (d.sh.vDir v2) (d.co.r v2)
      (d.co.r (d.sh.wV (d.sh.vW v2) (!d.sh.vDir v2))) (d.co.tau v2)
      (d.co.tau (d.sh.wV (d.sh.vW v2) (!d.sh.vDir v2))) spinV2
      (sp (d.sh.wV (d.sh.vW v2) (!d.sh.vDir v2))) true
      (d.fl.wMeas (d.sh.vW v2)) (d.fl.wDelta (d.sh.vW v2)) (d.fl.wGam (d.sh.vW v2)) := by
    simp only [if_true, wW]
  rw [hL2'', hL2']
  clear hL1 hL2 hL1' hL2' hL1'' hL2''
  generalize hb : (if d.sh.wV (d.sh.vW d.worm.ira) (!d.sh.vDir d.worm.ira) = v2 then true
      else d.worm.isWorm (d.sh.wV (d.sh.vW d.worm.ira) (!d.sh.vDir d.worm.ira))) = b
  have hbiff : d.sh.vW d.worm.ira ≠ d.sh.vW v2 → (b = true ↔
      d.sh.wV (d.sh.vW d.worm.ira) (!d.sh.vDir d.worm.ira) = d.worm.masha) := by
    intro e
    rw [← hb, if_neg (fun e' => e (hw1w2.2 e'))]
    simp only [Worm.isWorm, hw, Bool.true_and, Bool.or_eq_true, beq_iff_eq]
    constructor
    · rintro (e' | e')
      · exact absurd e'.symm hfar1
      · exact e'.symm
    · intro e'; exact Or.inr e'.symm
  have hb2 : d.sh.vW d.worm.ira = d.sh.vW v2 → b = true := by
    intro e; rw [← hb, if_pos (hw1w2.1 e)]
  generalize hX1 : wW0 P d.ext (d.co.r (d.sh.wV (d.sh.vW d.worm.ira) IN)) _ _ _ _ _ b _ _ _ = X1
  generalize hX2 : wW0 P d.ext (d.co.r (d.sh.wV (d.sh.vW v2) IN)) _ _ _ _ _ true _ _ _ = X2
  generalize hX : gW0 P d.ext _ _ _ _ _ _ _ _ = X
  refine good_metropolis h (h.order_lt hP) fun hacc => ?_
  have hr := ratio_ne_zero hu hacc
  obtain ⟨gh, egh, hgh⟩ := replaceGHash_ok h.ghash hg hkW hkf
  have hg0 := h.line.g_ne g hg
  have hw10 := h.line.w_ne _ hw1
  have hw20 := h.line.w_ne _ hw2
  have hnz : X1 ≠ 0 ∧ X2 ≠ 0 ∧ X ≠ 0 := by
    refine ⟨?_, ?_, ?_⟩ <;> rintro rfl <;> simp at hr
  have hsame : d.sh.vW d.worm.ira = d.sh.vW v2 → X1 = X2 ∧ X2 = d.wt.wWt (d.sh.vW v2) := by
    intro e
    have hb' := hb2 e
    have hflag : d.fl.wWorm (d.sh.vW v2) = true :=
      (h.worm.flag _ hw2).2 ⟨hw, d.sh.vDir d.worm.ira, Or.inl (by rw [← e, eI])⟩
    constructor
    · rw [← hX1, ← hX2, hb', e]
    · rw [h.line.w_eq _ hw2, wExpected, hflag, ← hX2]
      exact wW0_worm _ _ _ _ _ _ _ _ _ _ _ _ _
  rw [egh]
  refine ⟨_, rfl, ?_⟩
  have hweight := h.weight
  rw [if_neg ho] at hweight
  exact {
    count := count_same h ho rfl rfl rfl rfl
    topo := h.topo
    kcons := by
      intro v hv
      have hc := h.kcons v hv
      have hd1 := subK_dvd (d.mo.gK g) (mulK (sgn dir) d.worm.k)
      have hd2 := mulK_dvd (sgn dir) d.worm.k
      unfold KConserved at hc ⊢
      simp only [hw, upd_apply, true_and] at hc ⊢
      simp only [h.topo.vG_eq_iff hv hg, Bool.not_false, Bool.not_true]
      by_cases h1 : v = d.worm.ira
      · subst h1
        rw [if_neg c0.symm]
        simp only [if_true] at hc
        cases dir
        · simp only [Bool.not_false] at hgI
          simp only [hvn, hgI, c0.symm, if_true, if_false, hgn] at hc ⊢
          simp only [sgn_false, sgn_true, mul_one, mul_neg] at hd1 hd2 ⊢; omega
        · simp only [Bool.not_true] at hgI
          simp only [hvn, hgI, c0.symm, if_true, if_false, hgn] at hc ⊢
          simp only [sgn_false, sgn_true, mul_one, mul_neg] at hd1 hd2 ⊢; omega
      · by_cases h2 : v = v2
        · subst h2
          simp only [h1, c0', if_true, if_false] at hc ⊢
          cases dir
          · simp only [Bool.not_false] at hgI hv2g
            simp only [hvn, hgI, h1, if_true, if_false, hv2g] at hc ⊢
            simp only [sgn_false, sgn_true, mul_one, mul_neg] at hd1 hd2 ⊢; omega
          · simp only [Bool.not_true] at hgI hv2g
            simp only [hvn, hgI, h1, if_true, if_false, hv2g] at hc ⊢
            simp only [sgn_false, sgn_true, mul_one, mul_neg] at hd1 hd2 ⊢; omega
        · have a1 : v ≠ d.sh.gV g IN := by
            cases dir
            · rw [hvn]; exact h2
            · simp only [Bool.not_true] at hgI; rw [hgI]; exact h1
          have a2 : v ≠ d.sh.gV g OUT := by
            cases dir
            · simp only [Bool.not_false] at hgI; rw [hgI]; exact h1
            · rw [hvn]; exact h2
          simp only [a1, a2, h1, h2, if_false] at hc ⊢
          exact hc
    ghash := hgh
    whash := h.whash
    spin := by
      intro g' hg'
      have := h.spin g' hg'
      have e1 := h.topo.vG_gV g' hg' IN
      have e2 := h.topo.vG_gV g' hg' OUT
      simp only [Bool.not_false, Bool.not_true] at e1 e2
      show sp _ _ = sp _ _
      rw [spv _ (h.topo.gV_mem g' hg' IN), spv _ (h.topo.gV_mem g' hg' OUT), e1, e2, this]
    worm := {
      ira_mem := fun _ => hv2
      masha_mem := h.worm.masha_mem
      ne := fun _ => c0'
      masha_dir := h.worm.masha_dir
      k_in := h.worm.k_in
      dSpin := h.worm.dSpin
      wt := fun _ => rfl
      flag := by
        intro w' hw'
        simp only [upd_apply, hw, true_and]
        by_cases a2 : w' = d.sh.vW v2
        · simp only [a2, if_true, true_iff]
          exact ⟨_, Or.inl e2⟩
        · by_cases a1 : w' = d.sh.vW d.worm.ira
          · simp only [a2, if_false, if_pos a1]
            subst a1
            rw [hbiff a2]
            constructor
            · intro e; exact ⟨_, Or.inr e⟩
            · rintro ⟨x, hx | hx⟩
              · exact absurd ((h.topo.vW_wV _ hw1 x).symm.trans (by rw [hx])) a2
              · rcases hcase1 x with h3 | h3
                · exact absurd (h3.symm.trans hx) (h.worm.ne hw)
                · exact h3.symm.trans hx
          · simp only [a1, a2, if_false]
            rw [h.worm.flag w' hw']
            simp only [hw, true_and]
            refine exists_congr fun x => or_congr_left ?_
            constructor
            · intro hx
              exact absurd ((h.topo.vW_wV _ hw' x).symm.trans (by rw [hx])) a1
            · intro hx
              exact absurd ((h.topo.vW_wV _ hw' x).symm.trans (by rw [hx])) a2 }
    meas := h.meas
    delta := h.delta
    gamma := h.gamma
    dom := h.dom
    ext := h.ext
    line := {
      g_eq := by
        intro g' hg'
        by_cases e : g' = g
        · subst e; simp only [upd_same, gExpected]; exact hX.symm
        · have := h.line.g_eq g' hg'
          have e1 := h.topo.vG_gV g' hg' IN
          have e2 := h.topo.vG_gV g' hg' OUT
          simp only [Bool.not_false, Bool.not_true] at e1 e2
          simp only [gExpected, upd_ne _ _ e] at this ⊢
          rw [spv _ (h.topo.gV_mem g' hg' IN), spv _ (h.topo.gV_mem g' hg' OUT), e1, e2, if_neg e, if_neg e,
            this]
      g_ne := by
        intro g' hg'
        simp only [upd_apply]; split_ifs
        · exact hnz.2.2
        · exact h.line.g_ne g' hg'
      w_eq := by
        intro w' hw'
        simp only [upd_apply, wExpected]
        by_cases a2 : w' = d.sh.vW v2
        · subst a2; simp only [if_true]; rw [← hX2]
        · by_cases a1 : w' = d.sh.vW d.worm.ira
          · simp only [a2, if_false, if_pos a1]
            subst a1
            rw [← hX1]
          · simp only [a1, a2, if_false]
            have := h.line.w_eq w' hw'
            have n1 : ∀ x, d.sh.wV w' x ≠ d.worm.ira := fun x hx =>
              a1 ((h.topo.vW_wV _ hw' x).symm.trans (by rw [hx]))
            have n2 : ∀ x, d.sh.wV w' x ≠ v2 := fun x hx =>
              a2 ((h.topo.vW_wV _ hw' x).symm.trans (by rw [hx]))
            rw [spo _ (n1 _) (n2 _), spo _ (n1 _) (n2 _)]
            exact this
      w_ne := by
        intro w' hw'
        simp only [upd_apply]; split_ifs
        · exact hnz.2.1
        · exact hnz.1
        · exact h.line.w_ne w' hw' }
    weight := by
      simp only [if_neg ho]
      rw [total_updG hg hg0]
      by_cases e : d.sh.vW d.worm.ira = d.sh.vW v2
      · obtain ⟨s1, s2⟩ := hsame e
        have : upd (upd d.wt.wWt (d.sh.vW d.worm.ira) X1) (d.sh.vW v2) X2 = d.wt.wWt := by
          funext x; simp only [upd_apply]; split_ifs with a1 a2
          · rw [a1, s2]
          · exact absurd (a2.trans e) a1
          · rfl
        rw [this, hweight, e, s1, s2]
        field_simp
      · have e' : upd d.wt.wWt (d.sh.vW d.worm.ira) X1 (d.sh.vW v2) = d.wt.wWt (d.sh.vW v2) :=
          upd_ne _ _ (fun x => e x.symm)
        rw [total_updW hw2 (by rw [e']; exact hw20), total_updW hw1 hw10, e', hweight]
        field_simp
    phase := by simp only [h.phase, map_mul]
    sign := h.sign }

end Feyn
