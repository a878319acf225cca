import Verif.Proof.Insert

/-!
# `AddInteraction` and `AddDeltaInteraction` keep the diagram consistent
-/

set_option linter.unusedSectionVars false
set_option linter.unusedSimpArgs false

namespace Feyn

section
variable {Q F : Type} [Field Q] [LinearOrder Q] [IsStrictOrderedRing Q] [Field F]

/-- The product of weights after an insertion. -/
theorem total_ins {G W : Finset ℕ} {gw ww : ℕ → F} {sfl : ℤ} {N : ℕ} {gA gB gI gM w : ℕ} {a b c e x : F}
    (hA : gA ∉ G) (hB : gB ∉ G) (hAB : gA ≠ gB) (hI : gI ∈ G) (hM : gM ∈ G) (hIM : gI ≠ gM) (hw : w ∉ W)
    (h1 : gw gI ≠ 0) (h2 : gw gM ≠ 0) :
    totalWeight (insert gB (insert gA G)) (insert w W)
      ⟨upd (upd (upd (upd gw gA a) gB b) gI c) gM e, upd ww w x⟩ sfl (N + 1) =
    totalWeight G W ⟨gw, ww⟩ sfl N * ((-1) * a * b * x * c * e / (gw gI * gw gM)) := by
  have nIA : gI ≠ gA := fun q => hA (q ▸ hI)
  have nIB : gI ≠ gB := fun q => hB (q ▸ hI)
  have nMA : gM ≠ gA := fun q => hA (q ▸ hM)
  have nMB : gM ≠ gB := fun q => hB (q ▸ hM)
  have v1 : upd (upd gw gA a) gB b gI = gw gI := by rw [upd_ne _ _ nIB, upd_ne _ _ nIA]
  have v2 : upd (upd (upd gw gA a) gB b) gI c gM = gw gM := by
    rw [upd_ne _ _ hIM.symm, upd_ne _ _ nMB, upd_ne _ _ nMA]
  rw [total_updG (by simp [hM]) (by rw [v2]; exact h2), total_updG (by simp [hI]) (by rw [v1]; exact h1), v1, v2]
  unfold totalWeight
  rw [Finset.prod_insert (by simp [hB, hAB.symm]), Finset.prod_insert hA, Finset.prod_insert hw]
  have e1 : ∏ y ∈ G, upd (upd gw gA a) gB b y = ∏ y ∈ G, gw y := by
    apply Finset.prod_congr rfl
    intro y hy
    have n1 : y ≠ gB := fun q => hB (q ▸ hy)
    have n2 : y ≠ gA := fun q => hA (q ▸ hy)
    rw [upd_ne _ _ n1, upd_ne _ _ n2]
  have e2 : ∏ y ∈ W, upd ww w x y = ∏ y ∈ W, ww y := by
    apply Finset.prod_congr rfl
    intro y hy
    have n1 : y ≠ w := fun q => hw (q ▸ hy)
    rw [upd_ne _ _ n1]
  have e3 : upd (upd gw gA a) gB b gA = a := by rw [upd_ne _ _ hAB, upd_same]
  simp only [e1, e2, e3, upd_same, pow_succ]
  field_simp

theorem addCore_good {P : Params Q F} (hP : P.Wf) {d : Diag Q F} (h : Inv P d)
    (ho : d.order ≠ 0) (hmax : d.order < P.maxOrd) (hw : d.worm.exist = true) {isDelta : Bool} {kW : ℤ}
    (hkW : InK kW) {dir dirW : Dir} {tauA tauB u : Q} (htA : TauIn P tauA) (htB : TauIn P tauB)
    (hu : 0 ≤ u) :
    Good P d (addCore P d isDelta kW dir dirW tauA tauB u) := by
  have hI := h.worm.ira_mem hw
  have hM := h.worm.masha_mem hw
  have hne := h.worm.ne hw
  have hg1 := h.topo.vG_mem _ hI dir
  have hg2 := h.topo.vG_mem _ hM dir
  have hA := h.topo.gV_mem _ hg1 dir
  have hB := h.topo.gV_mem _ hg2 dir
  have hA0 := h.topo.gV_mem _ hg1 IN
  have hB0 := h.topo.gV_mem _ hg2 IN
  have s1 := spin_end h.spin hg1
  have s2 := spin_end h.spin hg2
  have e1 := h.topo.gV_vG _ hI dir
  have e2 := h.topo.gV_vG _ hM dir
  have kin1 := h.ghash.mem _ hg1
  have kin2 := h.ghash.mem _ hg2
  have hoe : d.order = d.W.avail := by
    rcases h.count.order with e | e
    · exact e
    · exact absurd e.1 ho
  unfold addCore
  obtain ⟨occW, hocc, hocc'⟩ := wHashCheck_spec d.mo.wHash hkW
  simp only [hocc, Res.ok_bind]
  cases occW with
  | true => exact good_skip h
  | false =>
  obtain ⟨hk0, hkf⟩ := hocc' rfl
  simp only [deref_live hI, deref_live hM, deref_live hg1, deref_live hg2, deref_live hA, deref_live hB,
    deref_live hA0, deref_live hB0, Res.ok_bind, Bool.false_eq_true, if_false]
  generalize hkIA : subK (d.mo.gK (d.sh.vG d.worm.ira dir)) (mulK (sgn dir * sgn dirW) kW) = kIA
  generalize hkMB : addK (d.mo.gK (d.sh.vG d.worm.masha dir)) (mulK (sgn dir * sgn dirW) kW) = kMB
  have inIA : InK kIA := hkIA ▸ subK_in kin1 (mulK_sgn2_in _ _ hkW)
  have inMB : InK kMB := hkMB ▸ addK_in kin2 (mulK_sgn2_in _ _ hkW)
  obtain ⟨occ1, hocc1, hocc1'⟩ := gHashCheck_spec d.mo.gHash inIA
  obtain ⟨occ2, hocc2, hocc2'⟩ := gHashCheck_spec d.mo.gHash inMB
  simp only [hocc1, hocc2, Res.ok_bind]
  cases occ1 with
  | true => exact good_skip h
  | false =>
  cases occ2 with
  | true => exact good_skip h
  | false =>
  simp only [Bool.false_eq_true, if_false]
  by_cases ckk : kIA = kMB
  · rw [if_pos ckk]; exact good_skip h
  rw [if_neg ckk]
  obtain ⟨rwN, hrwN⟩ := orderRW_ok hP (show d.order + 1 ≤ P.maxOrd by omega)
  obtain ⟨rwO, hrwO⟩ := orderRW_ok hP (show d.order ≤ P.maxOrd by omega)
  simp only [hrwN, hrwO, Res.ok_bind]
  -- new cells
  have c1 := h.count.ver
  have c2 := h.count.g
  have c3 := hP.lt_max
  obtain ⟨vA, ver1, ev1, wf1, lA, nA, live1, av1, -⟩ := Bundle.add_spec h.count.verWf (by omega)
  obtain ⟨vB, ver2, ev2, wf2, lB, nB, live2, av2, -⟩ := Bundle.add_spec wf1 (by omega)
  obtain ⟨gA, gb1, eg1, wfg1, lgA, ngA, liveg1, avg1, -⟩ := Bundle.add_spec h.count.gWf (by omega)
  obtain ⟨gB, gb2, eg2, wfg2, lgB, ngB, liveg2, avg2, -⟩ := Bundle.add_spec wfg1 (by omega)
  obtain ⟨w, wb1, ew1, wfw1, lw, nw, livew1, avw1, -⟩ := Bundle.add_spec h.count.wWf (by omega)
  rw [live1] at nB live2
  rw [liveg1] at ngB liveg2
  have H : InsHyp d.Ver.live d.G.live d.W.live d.sh d.worm.ira d.worm.masha vA vB gA gB w :=
    { topo := h.topo, hi := hI, hm := hM, hne := hne, hA := nA, hB := fun c => nB (by simp [c]),
      hAB := fun c => nB (by simp [c]), hgA := ngA, hgB := fun c => ngB (by simp [c]),
      hgAB := fun c => ngB (by simp [c]), hw := nw }
  have htopo := H.topo' (dir := dir) (dirW := dirW)
  have hgne := H.gne dir
  -- weights of the new lines
  set spA : Spin := d.co.spin (d.sh.gV (d.sh.vG d.worm.ira dir) IN) OUT with hspA
  set spB : Spin := d.co.spin (d.sh.gV (d.sh.vG d.worm.masha dir) IN) OUT with hspB
  have s1A := s1 (!dir)
  have s1C := s1 dir
  have s2A := s2 (!dir)
  have s2C := s2 dir
  rw [e1, Bool.not_not] at s1A
  rw [e2, Bool.not_not] at s2A
  generalize hvC : d.sh.gV (d.sh.vG d.worm.ira dir) dir = vC at *
  generalize hvD : d.sh.gV (d.sh.vG d.worm.masha dir) dir = vD at *
  set co' : Coord Q := { r := upd (upd d.co.r vA (d.co.r vC)) vB (d.co.r vD)
                         tau := upd (upd d.co.tau vA tauA) vB tauB
                         spin := upd (upd d.co.spin vA fun _ => spA) vB fun _ => spB } with hco'
  have rV : ∀ v ∈ d.Ver.live, co'.r v = d.co.r v ∧ co'.tau v = d.co.tau v ∧ co'.spin v = d.co.spin v := by
    intro v hv
    have n1 := (H.neV H.hA hv).symm
    have n2 := (H.neV H.hB hv).symm
    simp [hco', upd_ne _ _ n1, upd_ne _ _ n2]
  have rA : co'.r vA = d.co.r vC ∧ co'.tau vA = tauA ∧ co'.spin vA = fun _ => spA := by
    simp [hco', upd_ne _ _ H.hAB]
  have rB : co'.r vB = d.co.r vD ∧ co'.tau vB = tauB ∧ co'.spin vB = fun _ => spB := by
    simp [hco']
  set S' := insShape d.sh dir dirW d.worm.ira d.worm.masha vA vB gA gB w with hS'
  have hLA := gW_line S' gA dir P d.ext co'.r co'.tau co'.spin false false
  have hLB := gW_line S' gB dir P d.ext co'.r co'.tau co'.spin false false
  have hLI := gW_line S' (d.sh.vG d.worm.ira dir) dir P d.ext co'.r co'.tau co'.spin
    (d.fl.gMeas (d.sh.vG d.worm.ira dir)) (d.fl.gGam (d.sh.vG d.worm.ira dir))
  have hLM := gW_line S' (d.sh.vG d.worm.masha dir) dir P d.ext co'.r co'.tau co'.spin
    (d.fl.gMeas (d.sh.vG d.worm.masha dir)) (d.fl.gGam (d.sh.vG d.worm.masha dir))
  have hLW := wW_line htopo (v := vA) (by simp) P d.ext co'.r co'.tau co'.spin false false isDelta false
    (fun _ => rfl)
  have gI_C : S'.gV (d.sh.vG d.worm.ira dir) dir = vC := H.gI_C.trans hvC
  have gM_D : S'.gV (d.sh.vG d.worm.masha dir) dir = vD := H.gM_D.trans hvD
  have gI_A : S'.gV (d.sh.vG d.worm.ira dir) (!dir) = vA := H.gI_A
  have gM_B : S'.gV (d.sh.vG d.worm.masha dir) (!dir) = vB := H.gM_B
  have gA_i : S'.gV gA (!dir) = d.worm.ira := H.gA_i
  have gA_A : S'.gV gA dir = vA := H.gA_A
  have gB_m : S'.gV gB (!dir) = d.worm.masha := H.gB_m
  have gB_B : S'.gV gB dir = vB := H.gB_B
  have w_A : S'.wV w dirW = vA := H.w_A
  have w_B : S'.wV w (!dirW) = vB := H.w_B
  have vA_w : S'.vW vA = w := H.vA_w
  have vA_dir : S'.vDir vA = dirW := H.vA_dir
  rw [gA_i, gA_A, (rV _ hI).1, (rV _ hI).2.1, (rV _ hI).2.2, rA.1, rA.2.1, rA.2.2] at hLA
  rw [gB_m, gB_B, (rV _ hM).1, (rV _ hM).2.1, (rV _ hM).2.2, rB.1, rB.2.1, rB.2.2] at hLB
  rw [gI_A, gI_C, (rV _ hA).1, (rV _ hA).2.1, (rV _ hA).2.2, rA.1, rA.2.1, rA.2.2] at hLI
  rw [gM_B, gM_D, (rV _ hB).1, (rV _ hB).2.1, (rV _ hB).2.2, rB.1, rB.2.1, rB.2.2] at hLM
  simp only [vA_w, vA_dir, w_B] at hLW
  rw [rA.1, rA.2.1, rA.2.2, rB.1, rB.2.1, rB.2.2] at hLW
  rw [hLA, hLB, hLI, hLM, hLW]
  clear hLA hLB hLI hLM hLW
  generalize hXA : gW0 P d.ext (co'.r (S'.gV gA IN)) _ _ _ _ _ _ _ = XA
  generalize hXB : gW0 P d.ext (co'.r (S'.gV gB IN)) _ _ _ _ _ _ _ = XB
  generalize hXI : gW0 P d.ext (co'.r (S'.gV (d.sh.vG d.worm.ira dir) IN)) _ _ _ _ _ _ _ = XI
  generalize hXM : gW0 P d.ext (co'.r (S'.gV (d.sh.vG d.worm.masha dir) IN)) _ _ _ _ _ _ _ = XM
  generalize hXW : wW0 P d.ext _ _ _ _ _ _ _ _ _ _ = XW
  refine good_metropolis h (h.order_lt hP) fun hacc => ?_
  have hr := ratio_ne_zero hu hacc
  have hneA : XA ≠ 0 := by rintro rfl; simp at hr
  have hneB : XB ≠ 0 := by rintro rfl; simp at hr
  have hneI : XI ≠ 0 := by rintro rfl; simp at hr
  have hneM : XM ≠ 0 := by rintro rfl; simp at hr
  have hneW : XW ≠ 0 := by rintro rfl; simp at hr
  have h10 := h.line.g_ne _ hg1
  have h20 := h.line.g_ne _ hg2
  have hweight := h.weight
  rw [if_neg ho] at hweight
  obtain ⟨gh1, egh1, hgh1, hgh1'⟩ := addG_ok h.ghash ngA inIA (hocc1' rfl)
  obtain ⟨gh2, egh2, hgh2, -⟩ := addG_ok hgh1 ngB inMB (by rw [hgh1' _ (Ne.symm ckk)]; exact hocc2' rfl)
  obtain ⟨wh, ewh, hwh⟩ := addW_ok h.whash nw hkW hk0 hkf
  simp only [ev1, ev2, eg1, eg2, ew1, egh1, egh2, ewh, Res.ok_bind]
  refine ⟨_, rfl, ?_⟩
  have memG : ∀ {g}, g ∈ gb2.live ↔ g = gB ∨ g = gA ∨ g ∈ d.G.live := by
    intro g; rw [liveg2]; simp
  have memW : ∀ {x}, x ∈ wb1.live ↔ x = w ∨ x ∈ d.W.live := by
    intro x; rw [livew1]; simp
  have memV : ∀ {v}, v ∈ ver2.live ↔ v = vB ∨ v = vA ∨ v ∈ d.Ver.live := by
    intro v; rw [live2]; simp
  have hgo : ∀ g ∈ d.G.live, g ≠ d.sh.vG d.worm.ira dir → g ≠ d.sh.vG d.worm.masha dir →
      S'.gV g = d.sh.gV g := fun g hg n1 n2 =>
    H.g_other (H.neG H.hgA hg).symm (H.neG H.hgB hg).symm n1 n2
  have nGA : ∀ g ∈ d.G.live, g ≠ gA := fun g hg => (H.neG H.hgA hg).symm
  have nGB : ∀ g ∈ d.G.live, g ≠ gB := fun g hg => (H.neG H.hgB hg).symm
  have nW : ∀ x ∈ d.W.live, x ≠ w := fun x hx c => H.hw (c ▸ hx)
  have nVA : ∀ v ∈ d.Ver.live, v ≠ vA := fun v hv => (H.neV H.hA hv).symm
  have nVB : ∀ v ∈ d.Ver.live, v ≠ vB := fun v hv => (H.neV H.hB hv).symm
  have hwo : ∀ x ∈ d.W.live, S'.wV x = d.sh.wV x := fun x hx => H.w_other (nW x hx)
  exact {
    count := {
      verWf := wf2
      gWf := wfg2
      wWf := wfw1
      n_pos := by have := h.count.n_pos; simp only; omega
      n_le := by simp only; omega
      ver := by simp only; omega
      g := by simp only; omega
      order := Or.inl (by simp only; omega) }
    topo := by rw [live2, liveg2, livew1]; exact htopo
    kcons := by
      intro v hv
      have hd1 := subK_dvd d.worm.k (mulK (sgn dirW) kW)
      have hd2 := mulK_dvd (sgn dirW) kW
      have hd3 := subK_dvd (d.mo.gK (d.sh.vG d.worm.ira dir)) (mulK (sgn dir * sgn dirW) kW)
      have hd4 := addK_dvd (d.mo.gK (d.sh.vG d.worm.masha dir)) (mulK (sgn dir * sgn dirW) kW)
      have hd5 := mulK_dvd (sgn dir * sgn dirW) kW
      rw [hkIA] at hd3
      rw [hkMB] at hd4
      set gK' := upd (upd d.mo.gK gA kIA) gB kMB with hgK'
      have kA : gK' gA = kIA := by rw [hgK', upd_ne _ _ H.hgAB, upd_same]
      have kB : gK' gB = kMB := by rw [hgK', upd_same]
      have kG : ∀ g ∈ d.G.live, gK' g = d.mo.gK g := by
        intro g hg; rw [hgK', upd_ne _ _ (nGB g hg), upd_ne _ _ (nGA g hg)]
      show (MOD_K) ∣ gK' (S'.vG v IN) - gK' (S'.vG v OUT) - sgn (S'.vDir v) * upd d.mo.wK w kW (S'.vW v)
        - (if d.worm.exist = true ∧ v = d.worm.ira then subK d.worm.k (mulK (sgn dirW) kW) else 0)
        + (if d.worm.exist = true ∧ v = d.worm.masha then subK d.worm.k (mulK (sgn dirW) kW) else 0)
      simp only [hw, true_and]
      rcases memV.1 hv with rfl | rfl | hv'
      · have a1 : S'.vG v dir = _ := H.vB_d
        have a2 : S'.vG v (!dir) = _ := H.vB_n
        have a3 : S'.vDir v = _ := H.vB_dir
        have a4 : S'.vW v = _ := H.vB_w
        have n1 := (nVB _ hI).symm
        have n2 := (nVB _ hM).symm
        rw [a3, a4, upd_same, if_neg n1, if_neg n2]
        cases dir <;> simp only [Bool.not_false, Bool.not_true] at a1 a2 <;> rw [a1, a2, kB, kG _ hg2] <;>
          cases dirW <;> simp only [sgn_false, sgn_true, mul_one, mul_neg, Bool.not_false, Bool.not_true, one_mul,
            neg_mul, neg_neg] at * <;> omega
      · have a1 : S'.vG v dir = _ := H.vA_d
        have a2 : S'.vG v (!dir) = _ := H.vA_n
        have n1 := (nVA _ hI).symm
        have n2 := (nVA _ hM).symm
        rw [vA_dir, vA_w, upd_same, if_neg n1, if_neg n2]
        cases dir <;> simp only [Bool.not_false, Bool.not_true] at a1 a2 <;> rw [a1, a2, kA, kG _ hg1] <;>
          cases dirW <;> simp only [sgn_false, sgn_true, mul_one, mul_neg, Bool.not_false, Bool.not_true, one_mul,
            neg_mul, neg_neg] at * <;> omega
      · have hc := h.kcons v hv'
        unfold KConserved at hc
        simp only [hw, true_and] at hc
        have a3 : S'.vDir v = _ := H.v_dir (nVA _ hv') (nVB _ hv')
        have a4 : S'.vW v = _ := H.v_w (nVA _ hv') (nVB _ hv')
        rw [a3, a4, upd_ne _ _ (nW _ (h.topo.vW_mem v hv'))]
        by_cases n1 : v = d.worm.ira
        · have a1 : S'.vG v dir = gA := n1 ▸ H.i_d
          have a2 : S'.vG v (!dir) = d.sh.vG v (!dir) := n1 ▸ H.i_n
          have n2 : v ≠ d.worm.masha := n1 ▸ hne
          rw [← n1] at hd3 hg1
          have gm := h.topo.vG_mem v hv'
          rw [if_pos n1, if_neg n2] at hc ⊢
          cases dir <;> simp only [Bool.not_false, Bool.not_true] at a1 a2 <;> rw [a1, a2, kA, kG _ (gm _)] <;>
            cases dirW <;> simp only [sgn_false, sgn_true, mul_one, mul_neg, Bool.not_false, Bool.not_true, one_mul,
              neg_mul, neg_neg] at hd1 hd2 hd3 hd5 ⊢ <;> omega
        · by_cases n2 : v = d.worm.masha
          · have a1 : S'.vG v dir = gB := n2 ▸ H.m_d
            have a2 : S'.vG v (!dir) = d.sh.vG v (!dir) := n2 ▸ H.m_n
            rw [← n2] at hd4 hg2
            have gm := h.topo.vG_mem v hv'
            rw [if_neg n1, if_pos n2] at hc ⊢
            cases dir <;> simp only [Bool.not_false, Bool.not_true] at a1 a2 <;> rw [a1, a2, kB, kG _ (gm _)] <;>
              cases dirW <;> simp only [sgn_false, sgn_true, mul_one, mul_neg, Bool.not_false, Bool.not_true, one_mul,
                neg_mul, neg_neg] at hd1 hd2 hd4 hd5 ⊢ <;> omega
          · have a1 : S'.vG v = d.sh.vG v := H.v_other (nVA _ hv') (nVB _ hv') n1 n2
            rw [a1, kG _ (h.topo.vG_mem v hv' _), kG _ (h.topo.vG_mem v hv' _)]
            rw [if_neg n1, if_neg n2] at hc ⊢
            exact hc
    ghash := by rw [liveg2]; exact hgh2
    whash := by rw [livew1]; exact hwh
    spin := by
      intro g hg
      show co'.spin (S'.gV g IN) OUT = co'.spin (S'.gV g OUT) IN
      have main : co'.spin (S'.gV g dir) (!dir) = co'.spin (S'.gV g (!dir)) dir := by
        rcases memG.1 hg with rfl | rfl | hg'
        · rw [gB_B, gB_m, rB.2.2, (rV _ hM).2.2, s2A]
        · rw [gA_A, gA_i, rA.2.2, (rV _ hI).2.2, s1A]
        · by_cases n1 : g = d.sh.vG d.worm.ira dir
          · subst n1; rw [gI_C, gI_A, rA.2.2, (rV _ hA).2.2, s1C]
          · by_cases n2 : g = d.sh.vG d.worm.masha dir
            · subst n2; rw [gM_D, gM_B, rB.2.2, (rV _ hB).2.2, s2C]
            · rw [hgo g hg' n1 n2, (rV _ (h.topo.gV_mem g hg' _)).2.2, (rV _ (h.topo.gV_mem g hg' _)).2.2]
              have a := spin_end h.spin hg' dir
              have b := spin_end h.spin hg' (!dir)
              rw [Bool.not_not] at b
              rw [a, b]
      cases dir
      · exact main
      · exact main.symm
    worm := {
      ira_mem := fun _ => memV.2 (Or.inr (Or.inr hI))
      masha_mem := fun _ => memV.2 (Or.inr (Or.inr hM))
      ne := h.worm.ne
      masha_dir := fun _ => by
        have : S'.vDir d.worm.masha = d.sh.vDir d.worm.masha := H.v_dir (nVA _ hM) (nVB _ hM)
        exact this.trans (h.worm.masha_dir hw)
      k_in := fun _ => subK_in (h.worm.k_in hw) (mulK_sgn_in _ hkW)
      dSpin := h.worm.dSpin
      wt := h.worm.wt
      flag := by
        intro x hx
        show upd d.fl.wWorm w false x = true ↔ d.worm.exist = true ∧
          ∃ e, S'.wV x e = d.worm.ira ∨ S'.wV x e = d.worm.masha
        rcases memW.1 hx with rfl | hx'
        · rw [upd_same]
          simp only [Bool.false_eq_true, false_iff, not_and, not_exists]
          intro _ e he
          have : S'.wV x e = vA ∨ S'.wV x e = vB := by
            cases dirW <;> cases e <;> simp_all
          rcases this with q | q <;> rw [q] at he
          · rcases he with he | he
            · exact nVA _ hI he.symm
            · exact nVA _ hM he.symm
          · rcases he with he | he
            · exact nVB _ hI he.symm
            · exact nVB _ hM he.symm
        · rw [upd_ne _ _ (nW x hx'), hwo x hx']
          exact h.worm.flag x hx' }
    meas := {
      g_mem := fun c => memG.2 (Or.inr (Or.inr (h.meas.g_mem c)))
      w_mem := fun c => memW.2 (Or.inr (h.meas.w_mem c))
      g_flag := by
        intro g hg
        dsimp only
        rcases memG.1 hg with rfl | rfl | hg'
        · rw [upd_same]
          simp only [Bool.false_eq_true, false_iff, not_and]
          intro c e; exact nGB _ (h.meas.g_mem c) e.symm
        · rw [upd_ne _ _ H.hgAB, upd_same]
          simp only [Bool.false_eq_true, false_iff, not_and]
          intro c e; exact nGA _ (h.meas.g_mem c) e.symm
        · rw [upd_ne _ _ (nGB g hg'), upd_ne _ _ (nGA g hg')]; exact h.meas.g_flag g hg'
      w_flag := by
        intro x hx
        dsimp only
        rcases memW.1 hx with rfl | hx'
        · rw [upd_same]
          simp only [Bool.false_eq_true, false_iff, not_and]
          intro c e; exact nW _ (h.meas.w_mem c) e.symm
        · rw [upd_ne _ _ (nW x hx')]; exact h.meas.w_flag x hx' }
    delta := by
      intro x hx
      rcases memW.1 hx with rfl | hx'
      · intro _; simp only [upd_same, and_self]
      · simp only [upd_ne _ _ (nW x hx')]; exact h.delta x hx'
    gamma := {
      le := h.gamma.le
      g_flag := by
        intro g hg
        dsimp only
        rcases memG.1 hg with rfl | rfl | hg'
        · rw [upd_same]
          simp only [Bool.false_eq_true, false_iff, not_and]
          intro c e
          obtain ⟨g', m', f'⟩ := h.gamma.g_ex c
          have := ((h.gamma.g_flag g' m').1 f').2.1
          rw [e] at this; injection this with q
          exact absurd q.symm (nGB _ m')
        · rw [upd_ne _ _ H.hgAB, upd_same]
          simp only [Bool.false_eq_true, false_iff, not_and]
          intro c e
          obtain ⟨g', m', f'⟩ := h.gamma.g_ex c
          have := ((h.gamma.g_flag g' m').1 f').2.1
          rw [e] at this; injection this with q
          exact absurd q.symm (nGA _ m')
        · rw [upd_ne _ _ (nGB g hg'), upd_ne _ _ (nGA g hg')]; exact h.gamma.g_flag g hg'
      w_flag := by
        intro x hx
        dsimp only
        rcases memW.1 hx with rfl | hx'
        · rw [upd_same]
          simp only [Bool.false_eq_true, false_iff, not_and]
          intro c e
          obtain ⟨x', m', f'⟩ := h.gamma.w_ex c
          have := ((h.gamma.w_flag x' m').1 f').2.1
          rw [e] at this; injection this with q
          exact absurd q.symm (nW _ m')
        · rw [upd_ne _ _ (nW x hx')]; exact h.gamma.w_flag x hx'
      g_ex := by
        intro c
        obtain ⟨g', m', f'⟩ := h.gamma.g_ex c
        exact ⟨g', memG.2 (Or.inr (Or.inr m')), by
          dsimp only; rw [upd_ne _ _ (nGB _ m'), upd_ne _ _ (nGA _ m')]; exact f'⟩
      w_ex := by
        intro c
        obtain ⟨x', m', f'⟩ := h.gamma.w_ex c
        exact ⟨x', memW.2 (Or.inr m'), by dsimp only; rw [upd_ne _ _ (nW _ m')]; exact f'⟩
      g_meas := by
        intro g hg
        dsimp only
        rcases memG.1 hg with rfl | rfl | hg'
        · intro _; rw [upd_same]
        · intro _; rw [upd_ne _ _ H.hgAB, upd_same]
        · rw [upd_ne _ _ (nGB g hg'), upd_ne _ _ (nGA g hg'), upd_ne _ _ (nGB g hg'), upd_ne _ _ (nGA g hg')]
          exact h.gamma.g_meas g hg'
      w_meas := by
        intro x hx
        dsimp only
        rcases memW.1 hx with rfl | hx'
        · intro _; rw [upd_same]
        · rw [upd_ne _ _ (nW x hx'), upd_ne _ _ (nW x hx')]; exact h.gamma.w_meas x hx' }
    dom := by
      intro v hv
      show SiteIn P (co'.r v) ∧ TauIn P (co'.tau v)
      rcases memV.1 hv with rfl | rfl | hv'
      · rw [rB.1, rB.2.1]; exact ⟨(h.dom _ hB).1, htB⟩
      · rw [rA.1, rA.2.1]; exact ⟨(h.dom _ hA).1, htA⟩
      · rw [(rV v hv').1, (rV v hv').2.1]; exact h.dom v hv'
    ext := h.ext
    line := {
      g_eq := by
        intro g hg
        show upd (upd (upd (upd d.wt.gWt gA XA) gB XB) (d.sh.vG d.worm.ira dir) XI) (d.sh.vG d.worm.masha dir) XM g
          = gExpected P S' co' _ d.ext g
        rcases memG.1 hg with rfl | rfl | hg'
        · rw [upd_ne _ _ (H.neG H.hgB hg2), upd_ne _ _ (H.neG H.hgB hg1), upd_same, ← hXB]
          simp only [gExpected, upd_same]
        · rw [upd_ne _ _ (H.neG H.hgA hg2), upd_ne _ _ (H.neG H.hgA hg1), upd_ne _ _ H.hgAB, upd_same, ← hXA]
          simp only [gExpected, upd_ne _ _ H.hgAB, upd_same]
        · by_cases n2 : g = d.sh.vG d.worm.masha dir
          · subst n2; rw [upd_same, ← hXM]
            simp only [gExpected, upd_ne _ _ (nGB _ hg'), upd_ne _ _ (nGA _ hg')]
          · by_cases n1 : g = d.sh.vG d.worm.ira dir
            · subst n1; rw [upd_ne _ _ n2, upd_same, ← hXI]
              simp only [gExpected, upd_ne _ _ (nGB _ hg'), upd_ne _ _ (nGA _ hg')]
            · rw [upd_ne _ _ n2, upd_ne _ _ n1, upd_ne _ _ (nGB _ hg'), upd_ne _ _ (nGA _ hg'), h.line.g_eq g hg']
              have a := rV _ (h.topo.gV_mem g hg' IN)
              have b := rV _ (h.topo.gV_mem g hg' OUT)
              simp only [gExpected, upd_ne _ _ (nGB _ hg'), upd_ne _ _ (nGA _ hg'), hgo g hg' n1 n2,
                a.1, a.2.1, a.2.2, b.1, b.2.1, b.2.2]
      w_eq := by
        intro x hx
        show upd d.wt.wWt w XW x = wExpected P S' co' _ d.ext x
        rcases memW.1 hx with rfl | hx'
        · rw [upd_same, ← hXW]
          simp only [wExpected, upd_same]
        · rw [upd_ne _ _ (nW x hx'), h.line.w_eq x hx']
          have a := rV _ (h.topo.wV_mem x hx' IN)
          have b := rV _ (h.topo.wV_mem x hx' OUT)
          simp only [wExpected, upd_ne _ _ (nW _ hx'), hwo x hx', a.1, a.2.1, a.2.2, b.1, b.2.1, b.2.2]
      g_ne := by
        intro g hg
        simp only [upd_apply]
        split_ifs with q1 q2 q3 q4
        · exact hneM
        · exact hneI
        · exact hneB
        · exact hneA
        · rcases memG.1 hg with rfl | rfl | hg'
          · exact absurd rfl q3
          · exact absurd rfl q4
          · exact h.line.g_ne g hg'
      w_ne := by
        intro x hx
        simp only [upd_apply]
        split_ifs with q1
        · exact hneW
        · rcases memW.1 hx with rfl | hx'
          · exact absurd rfl q1
          · exact h.line.w_ne x hx' }
    weight := by
      simp only [Nat.add_eq_zero_iff, one_ne_zero, and_false, if_false]
      rw [avw1, liveg2, livew1, total_ins H.hgA H.hgB H.hgAB hg1 hg2 hgne H.hw h10 h20, hweight]
    phase := by simp only [h.phase, map_mul]
    sign := by
      have := H.sign' (dir := dir) (dirW := dirW) (by
        intro v hv; rw [← live2] at hv; exact Bundle.live_lt hv) h.sign
      rw [live2]; exact this }

end
end Feyn
