import Verif.Proof.RevTau

/-!
# Detailed balance: adding and removing interaction lines
-/

set_option linter.unusedSectionVars false
set_option linter.unusedSimpArgs false

namespace Feyn

section
variable {Q F : Type} [Field Q] [LinearOrder Q] [IsStrictOrderedRing Q] [Field F]
variable {P : Params Q F} {d d' d'' : Diag Q F}

theorem SameParts.nonZero {fV fG fW : ℕ → ℕ} (s : SameParts d d' fV fG fW) (h : Inv P d) (ho : d.order ≠ 0) :
    NonZero P d' := by
  refine ⟨fun g hg => ?_, fun w hw => ?_⟩
  · obtain ⟨g', hg', rfl⟩ := s.g.surjOn hg; exact s.gExp_ne h ho hg'
  · obtain ⟨w', hw', rfl⟩ := s.w.surjOn hw; exact s.wExp_ne h ho hw'

/-! ### Adding -/

/-- Momentum of the new line next to the first worm end. -/
def kIA (d : Diag Q F) (kW : ℤ) (dir dirW : Dir) : ℤ :=
  subK (d.mo.gK (d.sh.vG d.worm.ira dir)) (mulK (sgn dir * sgn dirW) kW)

/-- Momentum of the new line next to the second worm end. -/
def kMB (d : Diag Q F) (kW : ℤ) (dir dirW : Dir) : ℤ :=
  addK (d.mo.gK (d.sh.vG d.worm.masha dir)) (mulK (sgn dir * sgn dirW) kW)

/-- When an insertion is proposed. -/
structure AddOk (P : Params Q F) (d : Diag Q F) (kW : ℤ) (dir dirW : Dir) : Prop where
  exist : d.worm.exist = true
  order : d.order ≠ 0
  lt : d.order < P.maxOrd
  k0 : kW ≠ 0
  kf : d.mo.wHash |kW| = false
  kA : d.mo.gHash (kIA d kW dir dirW) = false
  kB : d.mo.gHash (kMB d kW dir dirW) = false
  ne : kIA d kW dir dirW ≠ kMB d kW dir dirW

/-- The cells taken from the three containers. -/
structure NewCells (d : Diag Q F) (vA vB gA gB w : ℕ) (ver g wb : Bundle) : Prop where
  ins : InsHyp d.Ver.live d.G.live d.W.live d.sh d.worm.ira d.worm.masha vA vB gA gB w
  live : ver.live = insert vB (insert vA d.Ver.live)
  liveG : g.live = insert gB (insert gA d.G.live)
  liveW : wb.live = insert w d.W.live
  av : ver.avail = d.Ver.avail + 2
  avG : g.avail = d.G.avail + 2
  avW : wb.avail = d.W.avail + 1

/-- Spin on the line at the worm end `i`. -/
def lineSpin (d : Diag Q F) (i : ℕ) (dir : Dir) : Spin := d.co.spin (d.sh.gV (d.sh.vG i dir) IN) OUT

/-- The discrete effect of an insertion. -/
def setAdd (d : Diag Q F) (δ : Bool) (kW : ℤ) (dir dirW : Dir) (tA tB : Q) (vA vB gA gB w : ℕ)
    (ver g wb : Bundle) (gh wh : ℤ → Bool) : Diag Q F :=
  { d with
    order := d.order + 1
    Ver := ver, G := g, W := wb
    sh := insShape d.sh dir dirW d.worm.ira d.worm.masha vA vB gA gB w
    co := {
      r := upd (upd d.co.r vA (d.co.r (d.sh.gV (d.sh.vG d.worm.ira dir) dir))) vB
        (d.co.r (d.sh.gV (d.sh.vG d.worm.masha dir) dir))
      tau := upd (upd d.co.tau vA tA) vB tB
      spin := upd (upd d.co.spin vA fun _ => lineSpin d d.worm.ira dir) vB fun _ => lineSpin d d.worm.masha dir }
    mo := {
      gK := upd (upd d.mo.gK gA (kIA d kW dir dirW)) gB (kMB d kW dir dirW)
      wK := upd d.mo.wK w kW
      gHash := gh
      wHash := wh }
    fl := {
      gMeas := upd (upd d.fl.gMeas gA false) gB false
      gGam := upd (upd d.fl.gGam gA false) gB false
      wMeas := upd d.fl.wMeas w false
      wWorm := upd d.fl.wWorm w false
      wDelta := upd d.fl.wDelta w δ
      wGam := upd d.fl.wGam w false }
    worm := { d.worm with k := subK d.worm.k (mulK (sgn dirW) kW) } }

theorem kIA_in (h : Inv P d) (hw : d.worm.exist = true) {kW : ℤ} (hk : InK kW) (dir dirW : Dir) :
    InK (kIA d kW dir dirW) :=
  subK_in (h.ghash.mem _ (h.topo.vG_mem _ (h.worm.ira_mem hw) dir)) (mulK_sgn2_in _ _ hk)

theorem kMB_in (h : Inv P d) (hw : d.worm.exist = true) {kW : ℤ} (hk : InK kW) (dir dirW : Dir) :
    InK (kMB d kW dir dirW) :=
  addK_in (h.ghash.mem _ (h.topo.vG_mem _ (h.worm.masha_mem hw) dir)) (mulK_sgn2_in _ _ hk)

theorem add_skip (h : Inv P d) {δ : Bool} {kW : ℤ} (hk : InK kW) {dir dirW : Dir} {tA tB : Q}
    (hc : ¬ AddOk P d kW dir dirW) (u : Q) : (Move.add δ kW dir dirW tA tB).run P d u = skip d := by
  simp only [Move.run]
  by_cases c1 : d.worm.exist = false
  · rw [if_pos c1]
  rw [if_neg c1]
  by_cases c2 : d.order = 0 ∨ d.order ≥ P.maxOrd
  · rw [if_pos c2]
  rw [if_neg c2]
  have hw : d.worm.exist = true := by simpa using c1
  simp only [not_or, not_le, ge_iff_le] at c2
  have hI := h.worm.ira_mem hw
  have hM := h.worm.masha_mem hw
  have hg1 := h.topo.vG_mem _ hI dir
  have hg2 := h.topo.vG_mem _ hM dir
  have b1 := gHashCheck_ok d.mo.gHash (kIA_in h hw hk dir dirW)
  have b2 := gHashCheck_ok d.mo.gHash (kMB_in h hw hk dir dirW)
  unfold kIA at b1
  unfold kMB at b2
  unfold addCore
  rw [wHashCheck_ok d.mo.wHash hk, Res.ok_bind]
  by_cases q0 : kW = 0
  · rw [if_pos q0]; simp only [if_true]
  rw [if_neg q0]
  by_cases q1 : d.mo.wHash |kW| = true
  · rw [if_pos q1]
  rw [if_neg q1]
  simp only [deref_live hI, deref_live hM, deref_live hg1, deref_live hg2, Res.ok_bind, b1, b2]
  by_cases q2 : d.mo.gHash (kIA d kW dir dirW) = true
  · unfold kIA at q2; rw [if_pos q2]
  by_cases q3 : d.mo.gHash (kMB d kW dir dirW) = true
  · unfold kIA at q2; unfold kMB at q3; rw [if_neg q2, if_pos q3]
  by_cases q4 : kIA d kW dir dirW = kMB d kW dir dirW
  · unfold kIA at q2 q4; unfold kMB at q3 q4; rw [if_neg q2, if_neg q3, if_pos q4]
  exact absurd ⟨hw, c2.1, c2.2, q0, by simpa using q1, by simpa using q2, by simpa using q3, q4⟩ hc

theorem add_run (hP : P.Wf) (h : Inv P d) {δ : Bool} {kW : ℤ} (hk : InK kW) {dir dirW : Dir} {tA tB : Q}
    (hc : AddOk P d kW dir dirW) :
    ∃ vA vB gA gB w ver g wb gh wh, NewCells d vA vB gA gB w ver g wb ∧ ∃ R : F, ∃ wt ph,
      (NonZero P (setAdd d δ kW dir dirW tA tB vA vB gA gB w ver g wb gh wh) → R ≠ 0) ∧
      ∀ u, (Move.add δ kW dir dirW tA tB).run P d u = metropolis d d (P.mod R *
        addFactor P δ (P.orderRW.getD (d.order + 1) 0) (P.orderRW.getD d.order 0) tA tB) u
        (.ok { setAdd d δ kW dir dirW tA tB vA vB gA gB w ver g wb gh wh with
          weight := d.weight * R, phase := ph, wt := wt }) := by
  obtain ⟨hw, ho, hmax, k0, kf, cA, cB, cne⟩ := hc
  have hI := h.worm.ira_mem hw
  have hM := h.worm.masha_mem hw
  have hne := h.worm.ne hw
  have hg1 := h.topo.vG_mem _ hI dir
  have hg2 := h.topo.vG_mem _ hM dir
  have hA := h.topo.gV_mem _ hg1 dir
  have hB := h.topo.gV_mem _ hg2 dir
  have hA0 := h.topo.gV_mem _ hg1 IN
  have hB0 := h.topo.gV_mem _ hg2 IN
  have hoe := h.order_eq ho
  have b0 : wHashCheck d.mo.wHash kW = .ok false := by rw [wHashCheck_ok _ hk, if_neg k0, kf]
  have inA := kIA_in h hw hk dir dirW
  have inB := kMB_in h hw hk dir dirW
  have b1 : gHashCheck d.mo.gHash (kIA d kW dir dirW) = .ok false := by rw [gHashCheck_ok _ inA, cA]
  have b2 : gHashCheck d.mo.gHash (kMB d kW dir dirW) = .ok false := by rw [gHashCheck_ok _ inB, cB]
  have c1 := h.count.ver
  have c2 := h.count.g
  have c3 := hP.lt_max
  obtain ⟨vA, ver1, ev1, wf1, lA, nA, live1, av1, -⟩ := Bundle.add_spec h.count.verWf (by omega)
  obtain ⟨vB, ver2, ev2, wf2, lB, nB, live2, av2, -⟩ := Bundle.add_spec wf1 (by omega)
  obtain ⟨gA, gb1, eg1, wfg1, lgA, ngA, liveg1, avg1, -⟩ := Bundle.add_spec h.count.gWf (by omega)
  obtain ⟨gB, gb2, eg2, wfg2, lgB, ngB, liveg2, avg2, -⟩ := Bundle.add_spec wfg1 (by omega)
  obtain ⟨w, wb1, ew1, wfw1, lw, nw, livew1, avw1, -⟩ := Bundle.add_spec h.count.wWf (by omega)
  rw [live1] at nB live2
  rw [liveg1] at ngB liveg2
  have H : InsHyp d.Ver.live d.G.live d.W.live d.sh d.worm.ira d.worm.masha vA vB gA gB w :=
    { topo := h.topo, hi := hI, hm := hM, hne := hne, hA := nA, hB := fun c => nB (by simp [c]),
      hAB := fun c => nB (by simp [c]), hgA := ngA, hgB := fun c => ngB (by simp [c]),
      hgAB := fun c => ngB (by simp [c]), hw := nw }
  obtain ⟨gh1, egh1, hgh1, hgh1'⟩ := addG_ok h.ghash ngA inA cA
  obtain ⟨gh2, egh2, hgh2, -⟩ := addG_ok hgh1 ngB inB (by rw [hgh1' _ (Ne.symm cne)]; exact cB)
  obtain ⟨wh, ewh, hwh⟩ := addW_ok h.whash nw hk k0 kf
  refine ⟨vA, vB, gA, gB, w, ver2, gb2, wb1, gh2, wh, ⟨H, live2, liveg2, livew1, by omega, by omega, by omega⟩, ?_⟩
  have hmain : ∃ R : F, ∃ wt ph,
      (NonZero P (setAdd d δ kW dir dirW tA tB vA vB gA gB w ver2 gb2 wb1 gh2 wh) → R ≠ 0) ∧
      ∀ u, addCore P d δ kW dir dirW tA tB u = metropolis d d (P.mod R *
        addFactor P δ (P.orderRW.getD (d.order + 1) 0) (P.orderRW.getD d.order 0) tA tB) u
        (.ok { setAdd d δ kW dir dirW tA tB vA vB gA gB w ver2 gb2 wb1 gh2 wh with
          weight := d.weight * R, phase := ph, wt := wt }) := by
    unfold addCore
    unfold kIA at b1 egh1
    unfold kMB at b2 egh2
    have cne' := cne
    unfold kIA kMB at cne'
    simp only [b0, b1, b2, deref_live hI, deref_live hM, deref_live hg1, deref_live hg2, deref_live hA, deref_live hB,
      deref_live hA0, deref_live hB0, Res.ok_bind, Bool.false_eq_true, if_false, if_neg cne', orderRW_getD hP hmax,
      orderRW_getD hP hmax.le, orderRW_getD hP (show d.order + 1 ≤ P.maxOrd from hmax),
      ev1, ev2, eg1, eg2, ew1, egh1, egh2, ewh]
    refine ⟨_, _, _, ?_, fun u => rfl⟩
    -- the weights in the ratio are those of the new lines
    rintro ⟨nzG, nzW⟩
    have zA := nzG gA (by show _ ∈ gb2.live; rw [liveg2]; simp)
    have zB := nzG gB (by show _ ∈ gb2.live; rw [liveg2]; simp)
    have zI := nzG (d.sh.vG d.worm.ira dir) (by show _ ∈ gb2.live; rw [liveg2]; simp [hg1])
    have zM := nzG (d.sh.vG d.worm.masha dir) (by show _ ∈ gb2.live; rw [liveg2]; simp [hg2])
    have zW := nzW w (by show _ ∈ wb1.live; rw [livew1]; simp)
    unfold gExpected at zA zB zI zM
    unfold wExpected at zW
    have htopo := H.topo' (dir := dir) (dirW := dirW)
    set S' := insShape d.sh dir dirW d.worm.ira d.worm.masha vA vB gA gB w with hS'
    set D := setAdd d δ kW dir dirW tA tB vA vB gA gB w ver2 gb2 wb1 gh2 wh with hD
    have hsh : D.sh = S' := rfl
    have hex : D.ext = d.ext := rfl
    have nIA : d.sh.vG d.worm.ira dir ≠ gA := (H.neG H.hgA hg1).symm
    have nIB : d.sh.vG d.worm.ira dir ≠ gB := (H.neG H.hgB hg1).symm
    have nMA : d.sh.vG d.worm.masha dir ≠ gA := (H.neG H.hgA hg2).symm
    have nMB : d.sh.vG d.worm.masha dir ≠ gB := (H.neG H.hgB hg2).symm
    have f1 : D.fl.gMeas gA = false := by show upd (upd _ _ _) _ _ _ = _; rw [upd_ne _ _ H.hgAB, upd_same]
    have f2 : D.fl.gGam gA = false := by show upd (upd _ _ _) _ _ _ = _; rw [upd_ne _ _ H.hgAB, upd_same]
    have f3 : D.fl.gMeas gB = false := by show upd (upd _ _ _) _ _ _ = _; rw [upd_same]
    have f4 : D.fl.gGam gB = false := by show upd (upd _ _ _) _ _ _ = _; rw [upd_same]
    have f5 : D.fl.gMeas (d.sh.vG d.worm.ira dir) = d.fl.gMeas (d.sh.vG d.worm.ira dir) := by
      show upd (upd _ _ _) _ _ _ = _; rw [upd_ne _ _ nIB, upd_ne _ _ nIA]
    have f6 : D.fl.gGam (d.sh.vG d.worm.ira dir) = d.fl.gGam (d.sh.vG d.worm.ira dir) := by
      show upd (upd _ _ _) _ _ _ = _; rw [upd_ne _ _ nIB, upd_ne _ _ nIA]
    have f7 : D.fl.gMeas (d.sh.vG d.worm.masha dir) = d.fl.gMeas (d.sh.vG d.worm.masha dir) := by
      show upd (upd _ _ _) _ _ _ = _; rw [upd_ne _ _ nMB, upd_ne _ _ nMA]
    have f8 : D.fl.gGam (d.sh.vG d.worm.masha dir) = d.fl.gGam (d.sh.vG d.worm.masha dir) := by
      show upd (upd _ _ _) _ _ _ = _; rw [upd_ne _ _ nMB, upd_ne _ _ nMA]
    have w1 : D.fl.wMeas w = false := by show upd _ _ _ _ = _; rw [upd_same]
    have w2 : D.fl.wWorm w = false := by show upd _ _ _ _ = _; rw [upd_same]
    have w3 : D.fl.wDelta w = δ := by show upd _ _ _ _ = _; rw [upd_same]
    have w4 : D.fl.wGam w = false := by show upd _ _ _ _ = _; rw [upd_same]
    rw [hsh, hex, f1, f2] at zA
    rw [hsh, hex, f3, f4] at zB
    rw [hsh, hex, f5, f6] at zI
    rw [hsh, hex, f7, f8] at zM
    rw [hsh, hex, w1, w2, w3, w4] at zW
    have rV : ∀ v ∈ d.Ver.live, D.co.r v = d.co.r v ∧ D.co.tau v = d.co.tau v ∧ D.co.spin v = d.co.spin v := by
      intro v hv
      have n1 := (H.neV H.hA hv).symm
      have n2 := (H.neV H.hB hv).symm
      refine ⟨?_, ?_, ?_⟩ <;> (show upd (upd _ _ _) _ _ _ = _) <;> rw [upd_ne _ _ n2, upd_ne _ _ n1]
    have rA : D.co.r vA = d.co.r (d.sh.gV (d.sh.vG d.worm.ira dir) dir) ∧ D.co.tau vA = tA ∧
        D.co.spin vA = fun _ => lineSpin d d.worm.ira dir := by
      refine ⟨?_, ?_, ?_⟩ <;> (show upd (upd _ _ _) _ _ _ = _) <;> rw [upd_ne _ _ H.hAB, upd_same]
    have rB : D.co.r vB = d.co.r (d.sh.gV (d.sh.vG d.worm.masha dir) dir) ∧ D.co.tau vB = tB ∧
        D.co.spin vB = fun _ => lineSpin d d.worm.masha dir := by
      refine ⟨?_, ?_, ?_⟩ <;> (show upd (upd _ _ _) _ _ _ = _) <;> rw [upd_same]
    have hLA := gW_line S' gA dir P d.ext D.co.r D.co.tau D.co.spin false false
    have hLB := gW_line S' gB dir P d.ext D.co.r D.co.tau D.co.spin false false
    have hLI := gW_line S' (d.sh.vG d.worm.ira dir) dir P d.ext D.co.r D.co.tau D.co.spin
      (d.fl.gMeas (d.sh.vG d.worm.ira dir)) (d.fl.gGam (d.sh.vG d.worm.ira dir))
    have hLM := gW_line S' (d.sh.vG d.worm.masha dir) dir P d.ext D.co.r D.co.tau D.co.spin
      (d.fl.gMeas (d.sh.vG d.worm.masha dir)) (d.fl.gGam (d.sh.vG d.worm.masha dir))
    have hLW := wW_line htopo (v := vA) (by simp) P d.ext D.co.r D.co.tau D.co.spin false false δ false
      (fun _ => rfl)
    have gI_C : S'.gV (d.sh.vG d.worm.ira dir) dir = _ := H.gI_C
    have gM_D : S'.gV (d.sh.vG d.worm.masha dir) dir = _ := H.gM_D
    have gI_A : S'.gV (d.sh.vG d.worm.ira dir) (!dir) = vA := H.gI_A
    have gM_B : S'.gV (d.sh.vG d.worm.masha dir) (!dir) = vB := H.gM_B
    have gA_i : S'.gV gA (!dir) = d.worm.ira := H.gA_i
    have gA_A : S'.gV gA dir = vA := H.gA_A
    have gB_m : S'.gV gB (!dir) = d.worm.masha := H.gB_m
    have gB_B : S'.gV gB dir = vB := H.gB_B
    have w_A : S'.wV w dirW = vA := H.w_A
    have w_B : S'.wV w (!dirW) = vB := H.w_B
    have vA_w : S'.vW vA = w := H.vA_w
    have vA_dir : S'.vDir vA = dirW := H.vA_dir
    rw [gA_i, gA_A, (rV _ hI).1, (rV _ hI).2.1, (rV _ hI).2.2, rA.1, rA.2.1, rA.2.2] at hLA
    rw [gB_m, gB_B, (rV _ hM).1, (rV _ hM).2.1, (rV _ hM).2.2, rB.1, rB.2.1, rB.2.2] at hLB
    rw [gI_A, gI_C, (rV _ hA).1, (rV _ hA).2.1, (rV _ hA).2.2, rA.1, rA.2.1, rA.2.2] at hLI
    rw [gM_B, gM_D, (rV _ hB).1, (rV _ hB).2.1, (rV _ hB).2.2, rB.1, rB.2.1, rB.2.2] at hLM
    simp only [vA_w, vA_dir, w_B] at hLW
    rw [rA.1, rA.2.1, rA.2.2, rB.1, rB.2.1, rB.2.2] at hLW
    rw [← hLA] at zA
    rw [← hLB] at zB
    rw [← hLI] at zI
    rw [← hLM] at zM
    rw [← hLW] at zW
    exact div_ne_zero (mul_ne_zero (mul_ne_zero (mul_ne_zero (mul_ne_zero (mul_ne_zero (by norm_num) zA) zB) zW) zI) zM)
      (mul_ne_zero (h.line.g_ne _ hg1) (h.line.g_ne _ hg2))
  obtain ⟨R, wt, ph, hR, e⟩ := hmain
  refine ⟨R, wt, ph, hR, fun u => ?_⟩
  simp only [Move.run]
  rw [if_neg (by simp [hw]), if_neg (by simp only [not_or, ge_iff_le, not_le]; exact ⟨ho, hmax⟩)]
  exact e u

/-! ### Removing -/

/-- When a removal is proposed. -/
structure DelOk (d : Diag Q F) (δ : Bool) (dir : Dir) (vA vB gA gB w gC gD : ℕ) : Prop where
  exist : d.worm.exist = true
  order : 1 < d.order
  del : DelHyp d.Ver.live d.G.live d.W.live d.sh dir d.worm.ira d.worm.masha vA vB gA gB w gC gD
  mA : d.fl.gMeas gA = false
  aA : d.fl.gGam gA = false
  mB : d.fl.gMeas gB = false
  aB : d.fl.gGam gB = false
  sA : d.co.spin vA IN = d.co.spin vA OUT
  sB : d.co.spin vB IN = d.co.spin vB OUT
  mW : d.fl.wMeas w = false
  oW : d.fl.wWorm w = false
  dW : d.fl.wDelta w = δ
  aW : d.fl.wGam w = false
  rA : d.co.r vA = d.co.r (d.sh.gV gC dir)
  rB : d.co.r vB = d.co.r (d.sh.gV gD dir)

/-- The containers after a removal. -/
structure OldCells (d : Diag Q F) (vA vB gA gB w : ℕ) (ver g wb : Bundle) : Prop where
  live : ver.live = (d.Ver.live.erase vA).erase vB
  liveG : g.live = (d.G.live.erase gA).erase gB
  liveW : wb.live = d.W.live.erase w
  av : ver.avail = d.Ver.avail - 2
  avG : g.avail = d.G.avail - 2
  avW : wb.avail = d.W.avail - 1

/-- The discrete effect of a removal. -/
def setDel (d : Diag Q F) (dir : Dir) (vA w gC gD : ℕ) (ver g wb : Bundle) (gh wh : ℤ → Bool) : Diag Q F :=
  { d with
    order := d.order - 1
    Ver := ver, G := g, W := wb
    sh := delShape d.sh dir d.worm.ira d.worm.masha gC gD
    mo := { d.mo with gHash := gh, wHash := wh }
    worm := { d.worm with k := addK d.worm.k (mulK (sgn (d.sh.vDir vA)) (d.mo.wK w)) } }

theorem del_run (hP : P.Wf) (h : Inv P d) {δ : Bool} {dir : Dir} {vA vB gA gB w gC gD : ℕ}
    (hc : DelOk d δ dir vA vB gA gB w gC gD) :
    ∃ ver g wb gh wh, OldCells d vA vB gA gB w ver g wb ∧ ∃ R : F, ∃ wt ph,
      (NonZero P (setDel d dir vA w gC gD ver g wb gh wh) → R ≠ 0) ∧
      ∀ u, (Move.del δ dir : Move Q).run P d u = metropolis d d (P.mod R *
        delFactor P δ (P.orderRW.getD (d.order - 1) 0) (P.orderRW.getD d.order 0) (d.co.tau vA) (d.co.tau vB)) u
        (.ok { setDel d dir vA w gC gD ver g wb gh wh with weight := d.weight * R, phase := ph, wt := wt }) := by
  obtain ⟨hw, ho, H, mA, aA, mB, aB, sA, sB, mW, oW, dW, aW, rA, rB⟩ := hc
  have hI := H.hi
  have hM := H.hm
  have hg1 := H.gAG
  have hg2 := H.gBG
  have hA := H.vAV
  have hB := H.vBV
  have hwA := H.wW
  have hg3 := H.gCG
  have hg4 := H.gDG
  have hC := h.topo.gV_mem _ hg3 dir
  have hD := h.topo.gV_mem _ hg4 dir
  have hmx : d.order ≤ P.maxOrd := by
    have := h.count.n_le; rw [h.order_eq (by omega)]; exact this
  obtain ⟨ver1, ev1, wf1, live1, av1⟩ := Bundle.remove_spec h.count.verWf hA
  obtain ⟨ver2, ev2, wf2, live2, av2⟩ := Bundle.remove_spec wf1 (p := vB) (by
    rw [live1]; simp [hB, H.nAB.symm])
  obtain ⟨gb1, eg1, wfg1, liveg1, avg1⟩ := Bundle.remove_spec h.count.gWf hg1
  obtain ⟨gb2, eg2, wfg2, liveg2, avg2⟩ := Bundle.remove_spec wfg1 (p := gB) (by
    rw [liveg1]; simp [hg2, H.ngAB.symm])
  obtain ⟨wb1, ew1, wfw1, livew1, avw1⟩ := Bundle.remove_spec h.count.wWf hwA
  rw [live1] at live2
  rw [liveg1] at liveg2
  obtain ⟨gh1, egh1, hgh1⟩ := removeG_ok h.ghash hg1
  obtain ⟨gh2, egh2, hgh2⟩ := removeG_ok hgh1 (g := gB) (by simp [hg2, H.ngAB.symm])
  obtain ⟨wh, ewh, hwh⟩ := removeW_ok h.whash hwA
  refine ⟨ver2, gb2, wb1, gh2, wh, ⟨live2, liveg2, livew1, by omega, by omega, by omega⟩, ?_⟩
  have hmain : ∃ R : F, ∃ wt ph,
      (NonZero P (setDel d dir vA w gC gD ver2 gb2 wb1 gh2 wh) → R ≠ 0) ∧
      ∀ u, delCore P d δ dir u = metropolis d d (P.mod R *
        delFactor P δ (P.orderRW.getD (d.order - 1) 0) (P.orderRW.getD d.order 0) (d.co.tau vA) (d.co.tau vB)) u
        (.ok { setDel d dir vA w gC gD ver2 gb2 wb1 gh2 wh with weight := d.weight * R, phase := ph, wt := wt }) := by
    unfold delCore
    simp only [H.egA, H.egB, H.evA, H.evB, H.ewA, H.ewB, H.egC, H.egD, deref_live hI, deref_live hM, deref_live hg1,
      deref_live hg2, deref_live hA, deref_live hB, deref_live hg3, deref_live hg4, deref_live hC, deref_live hD,
      deref_live hwA, Res.ok_bind, mA, aA, mB, aB, sA, sB, mW, oW, dW, aW, Bool.or_self, Bool.false_eq_true, if_false,
      ne_eq, not_true_eq_false, bne_self_eq_false, if_neg (not_not.2 rA), if_neg (not_not.2 rB),
      orderRW_getD hP (show d.order - 1 ≤ P.maxOrd by omega), orderRW_getD hP hmx,
      ev1, ev2, eg1, eg2, ew1, egh1, egh2, ewh]
    refine ⟨_, _, _, ?_, fun u => rfl⟩
    rintro ⟨nzG, -⟩
    have zC := nzG gC (by show _ ∈ gb2.live; rw [liveg2]; exact H.mG.2 ⟨H.ngBC.symm, H.ngAC.symm, hg3⟩)
    have zD := nzG gD (by show _ ∈ gb2.live; rw [liveg2]; exact H.mG.2 ⟨H.ngBD.symm, H.ngAD.symm, hg4⟩)
    unfold gExpected at zC zD
    set S' := delShape d.sh dir d.worm.ira d.worm.masha gC gD with hS'
    have hLC := gW_line S' gC dir P d.ext d.co.r d.co.tau d.co.spin (d.fl.gMeas gC) (d.fl.gGam gC)
    have hLD := gW_line S' gD dir P d.ext d.co.r d.co.tau d.co.spin (d.fl.gMeas gD) (d.fl.gGam gD)
    have C_i : S'.gV gC (!dir) = d.worm.ira := H.C_i
    have C_C : S'.gV gC dir = _ := H.C_C
    have D_m : S'.gV gD (!dir) = d.worm.masha := H.D_m
    have D_D : S'.gV gD dir = _ := H.D_D
    rw [C_i, C_C] at hLC
    rw [D_m, D_D] at hLD
    have zC' := hLC.trans_ne zC
    have zD' := hLD.trans_ne zD
    exact div_ne_zero (mul_ne_zero (mul_ne_zero (by norm_num) zC') zD')
      (mul_ne_zero (mul_ne_zero (mul_ne_zero (mul_ne_zero (h.line.g_ne _ hg1) (h.line.g_ne _ hg2)) (h.line.g_ne _ hg3))
        (h.line.g_ne _ hg4)) (h.line.w_ne _ hwA))
  obtain ⟨R, wt, ph, hR, e⟩ := hmain
  refine ⟨R, wt, ph, hR, fun u => ?_⟩
  simp only [Move.run]
  rw [if_neg (by simp [hw]), if_neg (by omega)]
  exact e u

theorem del_cases (h : Inv P d) (δ : Bool) (dir : Dir) :
    (∀ u, (Move.del δ dir : Move Q).run P d u = skip d) ∨ ∃ vA vB gA gB w gC gD, DelOk d δ dir vA vB gA gB w gC gD := by
  simp only [Move.run]
  by_cases hw : d.worm.exist = false
  · left; intro u; rw [if_pos hw]
  by_cases ho : d.order ≤ 1
  · left; intro u; rw [if_neg hw, if_pos ho]
  simp only [if_neg hw, if_neg ho]
  have hw : d.worm.exist = true := by simpa using hw
  have hI := h.worm.ira_mem hw
  have hM := h.worm.masha_mem hw
  have hne := h.worm.ne hw
  have hg1 := h.topo.vG_mem _ hI dir
  have hg2 := h.topo.vG_mem _ hM dir
  have hA := h.topo.gV_mem _ hg1 dir
  have hB := h.topo.gV_mem _ hg2 dir
  have hwA := h.topo.vW_mem _ hA
  have hg3 := h.topo.vG_mem _ hA dir
  have hg4 := h.topo.vG_mem _ hB dir
  have hC := h.topo.gV_mem _ hg3 dir
  have hD := h.topo.gV_mem _ hg4 dir
  unfold delCore
  simp only [deref_live hI, deref_live hM, deref_live hg1, deref_live hg2, deref_live hA, deref_live hB,
    deref_live hg3, deref_live hg4, deref_live hC, deref_live hD, deref_live hwA, Res.ok_bind]
  generalize egA : d.sh.vG d.worm.ira dir = gA at *
  generalize egB : d.sh.vG d.worm.masha dir = gB at *
  generalize evA : d.sh.gV gA dir = vA at *
  generalize evB : d.sh.gV gB dir = vB at *
  by_cases c1 : (d.fl.gMeas gA || d.fl.gGam gA) = true
  · left; intro u; rw [if_pos c1]
  simp only [if_neg c1]
  by_cases c2 : (d.fl.gMeas gB || d.fl.gGam gB) = true
  · left; intro u; rw [if_pos c2]
  simp only [if_neg c2]
  by_cases c3 : d.co.spin vA IN ≠ d.co.spin vA OUT
  · left; intro u; rw [if_pos c3]
  simp only [if_neg c3]
  by_cases c4 : d.co.spin vB IN ≠ d.co.spin vB OUT
  · left; intro u; rw [if_pos c4]
  simp only [if_neg c4]
  by_cases c5 : d.sh.vW vA ≠ d.sh.vW vB
  · left; intro u; rw [if_pos c5]
  simp only [if_neg c5]
  generalize ew : d.sh.vW vA = w at *
  by_cases c6 : (d.fl.wMeas w || d.fl.wWorm w || (d.fl.wDelta w != δ) || d.fl.wGam w) = true
  · left; intro u; rw [if_pos c6]
  simp only [if_neg c6]
  generalize egC : d.sh.vG vA dir = gC at *
  generalize egD : d.sh.vG vB dir = gD at *
  by_cases c7 : d.co.r vA ≠ d.co.r (d.sh.gV gC dir)
  · left; intro u; rw [if_pos c7]
  simp only [if_neg c7]
  by_cases c8 : d.co.r vB ≠ d.co.r (d.sh.gV gD dir)
  · left; intro u; rw [if_pos c8]
  right
  simp only [ne_eq, not_not, Bool.not_eq_true, Bool.or_eq_false_iff] at c1 c2 c3 c4 c5 c6 c7 c8
  have hnw : ∀ v ∈ d.Ver.live, d.sh.vW v = w → v ≠ d.worm.ira ∧ v ≠ d.worm.masha := by
    intro v hv e
    have fl := h.worm.flag w hwA
    rw [c6.1.1.2] at fl
    have hno : ¬ (d.worm.exist = true ∧ ∃ e, d.sh.wV w e = d.worm.ira ∨ d.sh.wV w e = d.worm.masha) :=
      fun q => absurd (fl.2 q) (by simp)
    have hv1 := h.topo.wV_vW v hv
    rw [e] at hv1
    exact ⟨fun q => hno ⟨hw, d.sh.vDir v, Or.inl (hv1.trans q)⟩, fun q => hno ⟨hw, d.sh.vDir v, Or.inr (hv1.trans q)⟩⟩
  refine ⟨vA, vB, gA, gB, w, gC, gD, ⟨hw, by omega,
    { topo := h.topo, hi := hI, hm := hM, hne := hne, egA := egA, egB := egB, evA := evA, evB := evB
      egC := egC, egD := egD, ewA := ew, ewB := c5.symm
      nAi := (hnw vA hA ew).1, nAm := (hnw vA hA ew).2, nBi := (hnw vB hB c5.symm).1
      nBm := (hnw vB hB c5.symm).2 }, c1.1, c1.2, c2.1, c2.2, c3, c4, c6.1.1.1, c6.1.1.2, ?_, c6.2, c7, c8⟩⟩
  simpa using c6.1.2

/-! ### Balance -/

theorem addFactor_pos (hP : P.Wf) {δ : Bool} {x y a b : Q} (hx : 0 < x) (hy : 0 < y) : 0 < addFactor P δ x y a b := by
  have hn0 := numOps_cast_pos P
  have hb := hP.beta_pos
  have k1 := probOfCall_eq P (idx_lt P (op := .delDelta) (by decide))
  have k2 := probOfCall_eq P (idx_lt P (op := .addDelta) (by decide))
  have k3 := probOfCall_eq P (idx_lt P (op := .delInteraction) (by decide))
  have k4 := probOfCall_eq P (idx_lt P (op := .addInteraction) (by decide))
  unfold addFactor
  split_ifs
  · rw [k1, k2, probTau]; positivity
  · rw [k3, k4, probTau, probTau]; positivity

theorem add_del_factor (hP : P.Wf) {δ : Bool} {x y a b : Q} (hx : 0 < x) (hy : 0 < y) :
    addFactor P δ x y a b * delFactor P δ y x a b = 1 := by
  have hn0 := numOps_cast_pos P
  have hb := hP.beta_pos
  have k1 := probOfCall_eq P (idx_lt P (op := .delDelta) (by decide))
  have k2 := probOfCall_eq P (idx_lt P (op := .addDelta) (by decide))
  have k3 := probOfCall_eq P (idx_lt P (op := .delInteraction) (by decide))
  have k4 := probOfCall_eq P (idx_lt P (op := .addInteraction) (by decide))
  unfold addFactor delFactor
  split_ifs
  · rw [k1, k2]; simp only [probTau]; field_simp
  · rw [k3, k4]; simp only [probTau]; field_simp

theorem addDel_idx (P : Params Q F) (δ : Bool) : (if δ then Op.addDelta else .addInteraction).idx < numOps P := by
  cases δ
  · exact idx_lt P (op := .addInteraction) (by decide)
  · exact idx_lt P (op := .addDelta) (by decide)

theorem delDel_idx (P : Params Q F) (δ : Bool) : (if δ then Op.delDelta else .delInteraction).idx < numOps P := by
  cases δ
  · exact idx_lt P (op := .delInteraction) (by decide)
  · exact idx_lt P (op := .delDelta) (by decide)

theorem del_ins {V G W : Finset ℕ} {s : Shape} {dir dirW : Dir} {i m vA vB gA gB w : ℕ}
    (H : InsHyp V G W s i m vA vB gA gB w) :
    (∀ v ∈ V, (delShape (insShape s dir dirW i m vA vB gA gB w) dir i m (s.vG i dir) (s.vG m dir)).vG v = s.vG v) ∧
    (∀ g ∈ G, (delShape (insShape s dir dirW i m vA vB gA gB w) dir i m (s.vG i dir) (s.vG m dir)).gV g = s.gV g) := by
  have e1 := H.topo.gV_vG i H.hi dir
  have e2 := H.topo.gV_vG m H.hm dir
  have hne := H.hne
  constructor
  · intro v hv
    have n1 := (H.neV H.hA hv).symm
    have n2 := (H.neV H.hB hv).symm
    funext e
    simp only [delShape, insShape, upd2_apply, n1, n2, false_and, if_false]
    grind
  · intro g hg
    have n1 := (H.neG H.hgA hg).symm
    have n2 := (H.neG H.hgB hg).symm
    funext e
    simp only [delShape, insShape, upd2_apply, n1, n2, false_and, if_false]
    grind

theorem add_sector (hP : P.Wf) (hf : PosFactors P) {δ : Bool} {kW : ℤ} {dir dirW : Dir}
    {tA tB : Q} {vA vB gA gB w : ℕ} {ver g wb : Bundle} {gh wh : ℤ → Bool} (hav : wb.avail = d.W.avail + 1)
    (ho : d.order < P.maxOrd) {a b : F} {c : Wts F} :
    addFactor P δ (P.orderRW.getD (d.order + 1) 0) (P.orderRW.getD d.order 0) tA tB *
      (sector P d * (Move.add δ kW dir dirW tA tB).density P d) =
    sector P { setAdd d δ kW dir dirW tA tB vA vB gA gB w ver g wb gh wh with weight := a, phase := b, wt := c } *
      (Move.del δ dir).density P
        { setAdd d δ kW dir dirW tA tB vA vB gA gB w ver g wb gh wh with weight := a, phase := b, wt := c } := by
  have hn0 := numOps_cast_pos P
  have hb := hP.beta_pos
  have r0 := hf.order_pos hP ho.le
  have r1 := hf.order_pos hP (show d.order + 1 ≤ P.maxOrd from ho)
  have k1 := probOfCall_eq P (idx_lt P (op := .delDelta) (by decide))
  have k2 := probOfCall_eq P (idx_lt P (op := .addDelta) (by decide))
  have k3 := probOfCall_eq P (idx_lt P (op := .delInteraction) (by decide))
  have k4 := probOfCall_eq P (idx_lt P (op := .addInteraction) (by decide))
  have hs : sector P { setAdd d δ kW dir dirW tA tB vA vB gA gB w ver g wb gh wh with weight := a, phase := b, wt := c } =
    P.orderRW.getD (d.order + 1) 0 * (1 / (2 * ((MOD_K : ℤ) : Q))) ^ wb.avail *
      (if d.worm.exist = true then P.wormRW * d.worm.wt * (1 / ((MOD_K : ℤ) : Q)) else 1) *
      (if d.measG = true then 1 else P.polarRW) *
      (if d.hasGamma = 0 then 1 else if d.measG = true then P.gammaGRW else P.gammaWRW) := rfl
  rw [hs]
  unfold addFactor
  cases δ
  · simp only [Bool.false_eq_true, if_false, k3, k4, probTau, Move.density, sector, setAdd, hav, pow_succ]
    generalize (if d.worm.exist = true then P.wormRW * d.worm.wt * (1 / ((MOD_K : ℤ) : Q)) else 1) = A
    generalize (if d.measG = true then 1 else P.polarRW) = B
    generalize (if d.hasGamma = 0 then 1 else if d.measG = true then P.gammaGRW else P.gammaWRW) = C
    field_simp
  · simp only [if_true, k1, k2, probTau, Move.density, sector, setAdd, hav, pow_succ]
    generalize (if d.worm.exist = true then P.wormRW * d.worm.wt * (1 / ((MOD_K : ℤ) : Q)) else 1) = A
    generalize (if d.measG = true then 1 else P.polarRW) = B
    generalize (if d.hasGamma = 0 then 1 else if d.measG = true then P.gammaGRW else P.gammaWRW) = C
    field_simp

theorem add_bal (hP : P.Wf) (hf : PosFactors P) (h : Inv P d) (h' : Inv P d') {δ : Bool} {kW : ℤ} {dir dirW : Dir}
    {tA tB u p : Q} (hm : (Move.add δ kW dir dirW tA tB).Valid P d) (hu : 0 ≤ u)
    {out : Out Q F} (e : (Move.add δ kW dir dirW tA tB).run P d u = .ok out) (ha : out.tag = .accept)
    (hd : out.d = d') (hp : out.prob = p) : Bal P d (Move.add δ kW dir dirW tA tB) d' p := by
  obtain ⟨-, hk, htA, htB, hδt⟩ := hm
  by_cases hc : AddOk P d kW dir dirW
  swap
  · rw [add_skip h hk hc] at e; exact absurd ha (fun q => skip_not_accept e q)
  obtain ⟨vA, vB, gA, gB, w, ver, g, wb, gh, wh, N, R, wt, ph, -, er⟩ :=
    add_run (δ := δ) (tA := tA) (tB := tB) hP h hk hc
  rw [er] at e
  have hd' := (metropolis_accept e ha).2.1
  rw [hd] at hd'
  obtain ⟨hw, ho, hmax, k0, kf, cA, cB, cne⟩ := hc
  obtain ⟨H, live, liveG, liveW, av, avG, avW⟩ := N
  have r0 := hf.order_pos hP hmax.le
  have r1 := hf.order_pos hP (show d.order + 1 ≤ P.maxOrd from hmax)
  have hI := H.hi
  have hM := H.hm
  have rV : ∀ v ∈ d.Ver.live, d'.co.r v = d.co.r v ∧ d'.co.tau v = d.co.tau v ∧ d'.co.spin v = d.co.spin v := by
    intro v hv
    have n1 := (H.neV H.hA hv).symm
    have n2 := (H.neV H.hB hv).symm
    rw [hd']
    refine ⟨?_, ?_, ?_⟩ <;> (show upd (upd _ _ _) _ _ _ = _) <;> rw [upd_ne _ _ n2, upd_ne _ _ n1]
  have rA : d'.co.r vA = d.co.r (d.sh.gV (d.sh.vG d.worm.ira dir) dir) ∧ d'.co.tau vA = tA ∧
      d'.co.spin vA = fun _ => lineSpin d d.worm.ira dir := by
    rw [hd']
    refine ⟨?_, ?_, ?_⟩ <;> (show upd (upd _ _ _) _ _ _ = _) <;> rw [upd_ne _ _ H.hAB, upd_same]
  have rB : d'.co.r vB = d.co.r (d.sh.gV (d.sh.vG d.worm.masha dir) dir) ∧ d'.co.tau vB = tB ∧
      d'.co.spin vB = fun _ => lineSpin d d.worm.masha dir := by
    rw [hd']
    refine ⟨?_, ?_, ?_⟩ <;> (show upd (upd _ _ _) _ _ _ = _) <;> rw [upd_same]
  have hsh : d'.sh = insShape d.sh dir dirW d.worm.ira d.worm.masha vA vB gA gB w := by rw [hd']; rfl
  have hwo : d'.worm = { d.worm with k := subK d.worm.k (mulK (sgn dirW) kW) } := by rw [hd']; rfl
  have hord : d'.order = d.order + 1 := by rw [hd']; rfl
  have hira : d'.worm.ira = d.worm.ira := by rw [hwo]
  have hmas : d'.worm.masha = d.worm.masha := by rw [hwo]
  have hwK : d'.mo.wK w = kW := by rw [hd']; show upd _ _ _ _ = _; rw [upd_same]
  have hDel : DelOk d' δ dir vA vB gA gB w (d.sh.vG d.worm.ira dir) (d.sh.vG d.worm.masha dir) := {
    exist := by rw [hwo]; exact hw
    order := by rw [hord]; omega
    del := {
      topo := h'.topo
      hi := h'.worm.ira_mem (by rw [hwo]; exact hw)
      hm := h'.worm.masha_mem (by rw [hwo]; exact hw)
      hne := h'.worm.ne (by rw [hwo]; exact hw)
      egA := by rw [hsh, hira]; exact H.i_d
      egB := by rw [hsh, hmas]; exact H.m_d
      evA := by rw [hsh]; exact H.gA_A
      evB := by rw [hsh]; exact H.gB_B
      egC := by rw [hsh]; exact H.vA_d
      egD := by rw [hsh]; exact H.vB_d
      ewA := by rw [hsh]; exact H.vA_w
      ewB := by rw [hsh]; exact H.vB_w
      nAi := by rw [hira]; exact H.neV H.hA hI
      nAm := by rw [hmas]; exact H.neV H.hA hM
      nBi := by rw [hira]; exact H.neV H.hB hI
      nBm := by rw [hmas]; exact H.neV H.hB hM }
    mA := by rw [hd']; show upd (upd _ _ _) _ _ _ = _; rw [upd_ne _ _ H.hgAB, upd_same]
    aA := by rw [hd']; show upd (upd _ _ _) _ _ _ = _; rw [upd_ne _ _ H.hgAB, upd_same]
    mB := by rw [hd']; show upd (upd _ _ _) _ _ _ = _; rw [upd_same]
    aB := by rw [hd']; show upd (upd _ _ _) _ _ _ = _; rw [upd_same]
    sA := by rw [rA.2.2]
    sB := by rw [rB.2.2]
    mW := by rw [hd']; show upd _ _ _ _ = _; rw [upd_same]
    oW := by rw [hd']; show upd _ _ _ _ = _; rw [upd_same]
    dW := by rw [hd']; show upd _ _ _ _ = _; rw [upd_same]
    aW := by rw [hd']; show upd _ _ _ _ = _; rw [upd_same]
    rA := by rw [rA.1, hsh, H.gI_C, (rV _ (h.topo.gV_mem _ (h.topo.vG_mem _ hI _) _)).1]
    rB := by rw [rB.1, hsh, H.gM_D, (rV _ (h.topo.gV_mem _ (h.topo.vG_mem _ hM _) _)).1] }
  obtain ⟨ver', g', wb', gh', wh', O, R', wt', ph', hR', er'⟩ := del_run hP h' hDel
  obtain ⟨oV, oG, oW, ov, og, ow⟩ := O
  have evA := hDel.del.evA
  have evB := hDel.del.evB
  rw [hord, rA.2.1, rB.2.1, Nat.add_sub_cancel] at er'
  have hdirA : d'.sh.vDir vA = dirW := by rw [hsh]; exact H.vA_dir
  obtain ⟨dvG, dgV⟩ := del_ins (dir := dir) (dirW := dirW) H
  have nGA : ∀ g ∈ d.G.live, g ≠ gA := fun g hg => (H.neG H.hgA hg).symm
  have nGB : ∀ g ∈ d.G.live, g ≠ gB := fun g hg => (H.neG H.hgB hg).symm
  have nW : ∀ x ∈ d.W.live, x ≠ w := fun x hx c => H.hw (c ▸ hx)
  have hcells : ∀ b, SameCells d { setDel d' dir vA w (d.sh.vG d.worm.ira dir) (d.sh.vG d.worm.masha dir) ver' g' wb' gh' wh'
      with weight := b, phase := ph', wt := wt' } := by
    intro b
    constructor
    · show d'.order - 1 = _; rw [hord]; rfl
    · show d'.sfl = _; rw [hd']; rfl
    · show ver'.live = _
      rw [oV, hd']; show Finset.erase (Finset.erase ver.live _) _ = _
      rw [live]
      have := H.hA; have := H.hB; have := H.hAB
      ext x; simp only [Finset.mem_erase, Finset.mem_insert]; grind
    · show g'.live = _
      rw [oG, hd']; show Finset.erase (Finset.erase g.live _) _ = _
      rw [liveG]
      have := H.hgA; have := H.hgB; have := H.hgAB
      ext x; simp only [Finset.mem_erase, Finset.mem_insert]; grind
    · show wb'.live = _
      rw [oW, hd']; show Finset.erase wb.live _ = _
      rw [liveW]
      have := H.hw
      ext x; simp only [Finset.mem_erase, Finset.mem_insert]; grind
    · show ver'.avail = _
      rw [ov, hd']; show ver.avail - 2 = _; omega
    · show g'.avail = _
      rw [og, hd']; show g.avail - 2 = _; omega
    · show wb'.avail = _
      rw [ow, hd']; show wb.avail - 1 = _; omega
    · intro v hv
      show (delShape d'.sh dir d'.worm.ira d'.worm.masha _ _).vG v = _
      rw [hsh, hira, hmas]; exact dvG v hv
    · intro v hv
      show d'.sh.vW v = _
      rw [hsh]; exact H.v_w (H.neV H.hA hv).symm (H.neV H.hB hv).symm
    · intro v hv
      show d'.sh.vDir v = _
      rw [hsh]; exact H.v_dir (H.neV H.hA hv).symm (H.neV H.hB hv).symm
    · intro v hv
      show (delShape d'.sh dir d'.worm.ira d'.worm.masha _ _).gV v = _
      rw [hsh, hira, hmas]; exact dgV v hv
    · intro x hx
      show d'.sh.wV x = _
      rw [hsh]; exact H.w_other (nW x hx)
    · exact fun _ v hv => (rV v hv).1
    · exact fun _ v hv => (rV v hv).2.1
    · exact fun _ v hv => (rV v hv).2.2
    · intro x hx
      show d'.mo.gK x = _
      rw [hd']; show upd (upd _ _ _) _ _ _ = _
      rw [upd_ne _ _ (nGB x hx), upd_ne _ _ (nGA x hx)]
    · intro x hx
      show d'.mo.wK x = _
      rw [hd']; show upd _ _ _ _ = _
      rw [upd_ne _ _ (nW x hx)]
    · intro x hx
      show d'.fl.gMeas x = _
      rw [hd']; show upd (upd _ _ _) _ _ _ = _
      rw [upd_ne _ _ (nGB x hx), upd_ne _ _ (nGA x hx)]
    · intro x hx
      show d'.fl.gGam x = _
      rw [hd']; show upd (upd _ _ _) _ _ _ = _
      rw [upd_ne _ _ (nGB x hx), upd_ne _ _ (nGA x hx)]
    · intro x hx
      show d'.fl.wMeas x = _
      rw [hd']; show upd _ _ _ _ = _
      rw [upd_ne _ _ (nW x hx)]
    · intro x hx
      show d'.fl.wWorm x = _
      rw [hd']; show upd _ _ _ _ = _
      rw [upd_ne _ _ (nW x hx)]
    · intro x hx
      show d'.fl.wDelta x = _
      rw [hd']; show upd _ _ _ _ = _
      rw [upd_ne _ _ (nW x hx)]
    · intro x hx
      show d'.fl.wGam x = _
      rw [hd']; show upd _ _ _ _ = _
      rw [upd_ne _ _ (nW x hx)]
    · show d'.worm.exist = _; rw [hwo]
    · intro _
      show { d'.worm with k := addK d'.worm.k (mulK (sgn (d'.sh.vDir vA)) (d'.mo.wK w)) } = d.worm
      rw [hdirA, hwK, hwo]
      have hkk : addK (subK d.worm.k (mulK (sgn dirW) kW)) (mulK (sgn dirW) kW) = d.worm.k := by
        have i1 := h.worm.k_in hw
        have i2 := mulK_sgn_in dirW hk
        have d1 := subK_dvd d.worm.k (mulK (sgn dirW) kW)
        have d2 := addK_dvd (subK d.worm.k (mulK (sgn dirW) kW)) (mulK (sgn dirW) kW)
        exact InK.eq_of_dvd (addK_in (subK_in i1 i2) i2) i1 (by omega)
      simp only [hkk]
    · show d'.measG = _; rw [hd']; rfl
    · intro _; show d'.gMeasure = _; rw [hd']; rfl
    · intro _; show d'.wMeasure = _; rw [hd']; rfl
    · show d'.hasGamma = _; rw [hd']; rfl
    · intro _; show d'.ext = _; rw [hd']; rfl
  refine bal_core hP h h' hu e ha hd hp rfl (addFactor_pos hP r1 r0) (add_del_factor hP r1 r0)
    ⟨delDel_idx P δ, trivial⟩ ?_ er' rfl (hR' ?_) (hcells _).parts ?_
  · show Move.add δ (d'.mo.wK (d'.sh.vW (d'.sh.gV (d'.sh.vG d'.worm.ira dir) dir))) dir
      (d'.sh.vDir (d'.sh.gV (d'.sh.vG d'.worm.ira dir) dir)) (d'.co.tau (d'.sh.gV (d'.sh.vG d'.worm.ira dir) dir))
      (d'.co.tau (d'.sh.gV (d'.sh.vG d'.worm.masha dir) dir)) = _
    rw [hDel.del.egA, hDel.del.egB, evA, evB, hDel.del.ewA, hwK, hdirA, rA.2.1, rB.2.1]
  · exact (hcells 0).nonZero h ho
  · subst hd'
    exact add_sector hP hf avW hmax

/-- Renaming two cells. -/
def ren2 (a b a' b' : ℕ) (x : ℕ) : ℕ := if x = a then a' else if x = b then b' else x

theorem ren2_bij {S T T' : Finset ℕ} {a b a' b' : ℕ} (ha : a ∉ S) (hb : b ∉ S) (hab : a ≠ b) (ha' : a' ∉ S)
    (hb' : b' ∉ S) (hab' : a' ≠ b') (hT : T = insert b (insert a S)) (hT' : T' = insert b' (insert a' S)) :
    Set.BijOn (ren2 a b a' b') T T' := by
  subst hT hT'
  refine ⟨?_, ?_, ?_⟩
  · intro x hx
    simp only [Finset.mem_coe, Finset.mem_insert, ren2] at hx ⊢
    grind
  · intro x hx y hy e
    simp only [Finset.mem_coe, Finset.mem_insert, ren2] at hx hy e ⊢
    grind
  · intro y hy
    simp only [Finset.mem_coe, Finset.mem_insert] at hy
    rcases hy with rfl | rfl | hy
    · exact ⟨b, by simp, by simp [ren2, hab.symm]⟩
    · exact ⟨a, by simp, by simp [ren2]⟩
    · refine ⟨y, by simp [hy], ?_⟩
      have n1 : y ≠ a := fun e => ha (e ▸ hy)
      have n2 : y ≠ b := fun e => hb (e ▸ hy)
      simp [ren2, n1, n2]

theorem ren2_a (a b a' b' : ℕ) : ren2 a b a' b' a = a' := by simp [ren2]
theorem ren2_b {a b : ℕ} (h : a ≠ b) (a' b' : ℕ) : ren2 a b a' b' b = b' := by simp [ren2, h.symm]
theorem ren2_o {a b x : ℕ} (h1 : x ≠ a) (h2 : x ≠ b) (a' b' : ℕ) : ren2 a b a' b' x = x := by simp [ren2, h1, h2]

/-- Two insertions at the same place are equal up to the names of the new cells. -/
theorem ins_iso {V G W : Finset ℕ} {s : Shape} {dir dirW : Dir} {i m vA vB gA gB w vA' vB' gA' gB' w' : ℕ}
    (H : InsHyp V G W s i m vA vB gA gB w) (H' : InsHyp V G W s i m vA' vB' gA' gB' w') :
    (∀ v ∈ insert vB (insert vA V), ∀ e, (insShape s dir dirW i m vA' vB' gA' gB' w').vG (ren2 vA vB vA' vB' v) e =
      ren2 gA gB gA' gB' ((insShape s dir dirW i m vA vB gA gB w).vG v e)) ∧
    (∀ v ∈ insert vB (insert vA V), (insShape s dir dirW i m vA' vB' gA' gB' w').vW (ren2 vA vB vA' vB' v) =
      ren2 w w w' w' ((insShape s dir dirW i m vA vB gA gB w).vW v)) ∧
    (∀ v ∈ insert vB (insert vA V), (insShape s dir dirW i m vA' vB' gA' gB' w').vDir (ren2 vA vB vA' vB' v) =
      (insShape s dir dirW i m vA vB gA gB w).vDir v) ∧
    (∀ g ∈ insert gB (insert gA G), ∀ e, (insShape s dir dirW i m vA' vB' gA' gB' w').gV (ren2 gA gB gA' gB' g) e =
      ren2 vA vB vA' vB' ((insShape s dir dirW i m vA vB gA gB w).gV g e)) ∧
    (∀ x ∈ insert w W, ∀ e, (insShape s dir dirW i m vA' vB' gA' gB' w').wV (ren2 w w w' w' x) e =
      ren2 vA vB vA' vB' ((insShape s dir dirW i m vA vB gA gB w).wV x e)) := by
  have oV : ∀ v ∈ V, ren2 vA vB vA' vB' v = v := fun v hv => ren2_o (H.neV H.hA hv).symm (H.neV H.hB hv).symm _ _
  have oG : ∀ g ∈ G, ren2 gA gB gA' gB' g = g := fun v hv => ren2_o (H.neG H.hgA hv).symm (H.neG H.hgB hv).symm _ _
  have oW : ∀ x ∈ W, ren2 w w w' w' x = x := by
    intro x hx
    have n : x ≠ w := fun c => H.hw (c ▸ hx)
    exact ren2_o n n _ _
  have vA1 := ren2_a vA vB vA' vB'
  have vB1 := ren2_b H.hAB vA' vB'
  have gA1 := ren2_a gA gB gA' gB'
  have gB1 := ren2_b H.hgAB gA' gB'
  have w1 := ren2_a w w w' w'
  have hd : ∀ e : Dir, e = dir ∨ e = !dir := by intro e; cases e <;> cases dir <;> simp
  have hdW : ∀ e : Dir, e = dirW ∨ e = !dirW := by intro e; cases e <;> cases dirW <;> simp
  have t := H.topo
  refine ⟨?_, ?_, ?_, ?_, ?_⟩
  · intro v hv e
    simp only [Finset.mem_insert] at hv
    rcases hv with rfl | rfl | hv
    · rw [vB1]
      rcases hd e with rfl | rfl
      · rw [H'.vB_d, H.vB_d, oG _ (H.mG _)]
      · rw [H'.vB_n, H.vB_n, gB1]
    · rw [vA1]
      rcases hd e with rfl | rfl
      · rw [H'.vA_d, H.vA_d, oG _ (H.iG _)]
      · rw [H'.vA_n, H.vA_n, gA1]
    · rw [oV v hv]
      by_cases c1 : v = i
      · subst c1
        rcases hd e with rfl | rfl
        · rw [H'.i_d, H.i_d, gA1]
        · rw [H'.i_n, H.i_n, oG _ (H.iG _)]
      by_cases c2 : v = m
      · subst c2
        rcases hd e with rfl | rfl
        · rw [H'.m_d, H.m_d, gB1]
        · rw [H'.m_n, H.m_n, oG _ (H.mG _)]
      rw [H'.v_other (H'.neV H'.hA hv).symm (H'.neV H'.hB hv).symm c1 c2,
        H.v_other (H.neV H.hA hv).symm (H.neV H.hB hv).symm c1 c2, oG _ (t.vG_mem _ hv _)]
  · intro v hv
    simp only [Finset.mem_insert] at hv
    rcases hv with rfl | rfl | hv
    · rw [vB1, H'.vB_w, H.vB_w, w1]
    · rw [vA1, H'.vA_w, H.vA_w, w1]
    · rw [oV v hv, H'.v_w (H'.neV H'.hA hv).symm (H'.neV H'.hB hv).symm,
        H.v_w (H.neV H.hA hv).symm (H.neV H.hB hv).symm, oW _ (t.vW_mem _ hv)]
  · intro v hv
    simp only [Finset.mem_insert] at hv
    rcases hv with rfl | rfl | hv
    · rw [vB1, H'.vB_dir, H.vB_dir]
    · rw [vA1, H'.vA_dir, H.vA_dir]
    · rw [oV v hv, H'.v_dir (H'.neV H'.hA hv).symm (H'.neV H'.hB hv).symm,
        H.v_dir (H.neV H.hA hv).symm (H.neV H.hB hv).symm]
  · intro g hg e
    simp only [Finset.mem_insert] at hg
    rcases hg with rfl | rfl | hg
    · rw [gB1]
      rcases hd e with rfl | rfl
      · rw [H'.gB_B, H.gB_B, vB1]
      · rw [H'.gB_m, H.gB_m, oV _ H.hm]
    · rw [gA1]
      rcases hd e with rfl | rfl
      · rw [H'.gA_A, H.gA_A, vA1]
      · rw [H'.gA_i, H.gA_i, oV _ H.hi]
    · rw [oG g hg]
      by_cases c1 : g = s.vG i dir
      · subst c1
        rcases hd e with rfl | rfl
        · rw [H'.gI_C, H.gI_C, oV _ (t.gV_mem _ hg _)]
        · rw [H'.gI_A, H.gI_A, vA1]
      by_cases c2 : g = s.vG m dir
      · subst c2
        rcases hd e with rfl | rfl
        · rw [H'.gM_D, H.gM_D, oV _ (t.gV_mem _ hg _)]
        · rw [H'.gM_B, H.gM_B, vB1]
      rw [H'.g_other (H'.neG H'.hgA hg).symm (H'.neG H'.hgB hg).symm c1 c2,
        H.g_other (H.neG H.hgA hg).symm (H.neG H.hgB hg).symm c1 c2, oV _ (t.gV_mem _ hg _)]
  · intro x hx e
    simp only [Finset.mem_insert] at hx
    rcases hx with rfl | hx
    · rw [w1]
      rcases hdW e with rfl | rfl
      · rw [H'.w_A, H.w_A, vA1]
      · rw [H'.w_B, H.w_B, vB1]
    · rw [oW x hx, H'.w_other (fun c => H'.hw (c ▸ hx)), H.w_other (fun c => H.hw (c ▸ hx)),
        oV _ (t.wV_mem _ hx _)]

theorem del_sector (hP : P.Wf) (hf : PosFactors P) (ho : 1 < d.order) (hoe : d.order = d.W.avail)
    (hmax : d.order ≤ P.maxOrd) {δ : Bool} {kW : ℤ} {dir dirW : Dir}
    {tA tB : Q} {vA w gC gD : ℕ} {ver g wb : Bundle} {gh wh : ℤ → Bool} (hav : wb.avail = d.W.avail - 1)
    {a b : F} {c : Wts F} :
    delFactor P δ (P.orderRW.getD (d.order - 1) 0) (P.orderRW.getD d.order 0) tA tB *
      (sector P d * (Move.del δ dir).density P d) =
    sector P { setDel d dir vA w gC gD ver g wb gh wh with weight := a, phase := b, wt := c } *
      (Move.add δ kW dir dirW tA tB).density P
        { setDel d dir vA w gC gD ver g wb gh wh with weight := a, phase := b, wt := c } := by
  have hn0 := numOps_cast_pos P
  have hb := hP.beta_pos
  have r0 := hf.order_pos hP hmax
  have r1 := hf.order_pos hP (show d.order - 1 ≤ P.maxOrd by omega)
  have k1 := probOfCall_eq P (idx_lt P (op := .delDelta) (by decide))
  have k2 := probOfCall_eq P (idx_lt P (op := .addDelta) (by decide))
  have k3 := probOfCall_eq P (idx_lt P (op := .delInteraction) (by decide))
  have k4 := probOfCall_eq P (idx_lt P (op := .addInteraction) (by decide))
  obtain ⟨n, hn⟩ : ∃ n, d.W.avail = n + 1 := ⟨d.W.avail - 1, by omega⟩
  have hs : sector P { setDel d dir vA w gC gD ver g wb gh wh with weight := a, phase := b, wt := c } =
    P.orderRW.getD (d.order - 1) 0 * (1 / (2 * ((MOD_K : ℤ) : Q))) ^ wb.avail *
      (if d.worm.exist = true then P.wormRW * d.worm.wt * (1 / ((MOD_K : ℤ) : Q)) else 1) *
      (if d.measG = true then 1 else P.polarRW) *
      (if d.hasGamma = 0 then 1 else if d.measG = true then P.gammaGRW else P.gammaWRW) := rfl
  rw [hs]
  unfold delFactor
  cases δ
  · simp only [Bool.false_eq_true, if_false, k3, k4, probTau, Move.density, sector, hav, hn, pow_succ,
      Nat.add_sub_cancel]
    generalize (if d.worm.exist = true then P.wormRW * d.worm.wt * (1 / ((MOD_K : ℤ) : Q)) else 1) = A
    generalize (if d.measG = true then 1 else P.polarRW) = B
    generalize (if d.hasGamma = 0 then 1 else if d.measG = true then P.gammaGRW else P.gammaWRW) = C
    field_simp
  · simp only [if_true, k1, k2, probTau, Move.density, sector, hav, hn, pow_succ, Nat.add_sub_cancel]
    generalize (if d.worm.exist = true then P.wormRW * d.worm.wt * (1 / ((MOD_K : ℤ) : Q)) else 1) = A
    generalize (if d.measG = true then 1 else P.polarRW) = B
    generalize (if d.hasGamma = 0 then 1 else if d.measG = true then P.gammaGRW else P.gammaWRW) = C
    field_simp

theorem delFactor_pos (hP : P.Wf) {δ : Bool} {x y a b : Q} (hx : 0 < x) (hy : 0 < y) : 0 < delFactor P δ x y a b := by
  have := add_del_factor (P := P) hP (δ := δ) (a := a) (b := b) hy hx
  rw [eq_inv_of_mul_eq_one_right this]
  exact inv_pos.2 (addFactor_pos hP hy hx)

theorem del_bal (hP : P.Wf) (hf : PosFactors P) (h : Inv P d) (h' : Inv P d') {δ : Bool} {dir : Dir}
    (hdt : δ = true → DeltaTau d)
    {u p : Q} (hu : 0 ≤ u)
    {out : Out Q F} (e : (Move.del δ dir : Move Q).run P d u = .ok out) (ha : out.tag = .accept)
    (hd : out.d = d') (hp : out.prob = p) : Bal P d (Move.del δ dir) d' p := by
  rcases del_cases h δ dir with hs | ⟨vA, vB, gA, gB, w, gC, gD, hc⟩
  · rw [hs] at e; exact absurd ha (fun q => skip_not_accept e q)
  obtain ⟨ver, g, wb, gh, wh, O, R, wt, ph, -, er⟩ := del_run hP h hc
  rw [er] at e
  have hd' := (metropolis_accept e ha).2.1
  rw [hd] at hd'
  obtain ⟨hw, ho, H, mA, aA, mB, aB, sA, sB, mW, oW, dW, aW, rA, rB⟩ := hc
  obtain ⟨oV, oG, oWl, ov, og, ow⟩ := O
  have hoe := h.order_eq (show d.order ≠ 0 by omega)
  have hmx : d.order ≤ P.maxOrd := by
    have := h.count.n_le; rw [hoe]; exact this
  have r0 := hf.order_pos hP hmx
  have r1 := hf.order_pos hP (show d.order - 1 ≤ P.maxOrd by omega)
  have hsh : d'.sh = delShape d.sh dir d.worm.ira d.worm.masha gC gD := by rw [hd']; rfl
  have hwo : d'.worm = { d.worm with k := addK d.worm.k (mulK (sgn (d.sh.vDir vA)) (d.mo.wK w)) } := by rw [hd']; rfl
  have hord : d'.order = d.order - 1 := by rw [hd']; rfl
  have hira : d'.worm.ira = d.worm.ira := by rw [hwo]
  have hmas : d'.worm.masha = d.worm.masha := by rw [hwo]
  have hgK : d'.mo.gK = d.mo.gK := by rw [hd']; rfl
  have hwK : d'.mo.wK = d.mo.wK := by rw [hd']; rfl
  have hco : d'.co = d.co := by rw [hd']; rfl
  have hfl : d'.fl = d.fl := by rw [hd']; rfl
  have hlV : d'.Ver.live = (d.Ver.live.erase vA).erase vB := by rw [hd']; exact oV
  have hlG : d'.G.live = (d.G.live.erase gA).erase gB := by rw [hd']; exact oG
  have hlW : d'.W.live = d.W.live.erase w := by rw [hd']; exact oWl
  have hvG1 : d'.sh.vG d'.worm.ira dir = gC := by rw [hsh, hira]; exact H.i_d
  have hvG2 : d'.sh.vG d'.worm.masha dir = gD := by rw [hsh, hmas]; exact H.m_d
  have hkIn := h.whash.mem w H.wW
  -- momenta come back
  have hcA := h.kcons vA H.vAV
  have hcB := h.kcons vB H.vBV
  unfold KConserved at hcA hcB
  simp only [hw, true_and] at hcA hcB
  rw [if_neg H.nAi, if_neg H.nAm, H.ewA] at hcA
  rw [if_neg H.nBi, if_neg H.nBm, H.ewB, H.dirB] at hcB
  have vAn := H.vA_n
  have vBn := H.vB_n
  have vAd := H.egC
  have vBd := H.egD
  have hd5 := mulK_dvd (sgn dir * sgn (d.sh.vDir vA)) (d.mo.wK w)
  have eA : kIA d' (d.mo.wK w) dir (d.sh.vDir vA) = d.mo.gK gA := by
    refine InK.eq_of_dvd (kIA_in h' (by rw [hwo]; exact hw) hkIn _ _) (h.ghash.mem _ H.gAG) ?_
    unfold kIA
    rw [hvG1, hgK]
    have hd3 := subK_dvd (d.mo.gK gC) (mulK (sgn dir * sgn (d.sh.vDir vA)) (d.mo.wK w))
    generalize d.sh.vDir vA = dA at hd3 hd5 hcA hcB ⊢
    cases dir <;> simp only [Bool.not_false, Bool.not_true] at vAn vAd <;> rw [vAn, vAd] at hcA <;>
      cases dA <;> simp only [sgn_false, sgn_true, mul_one, mul_neg, Bool.not_false, Bool.not_true, one_mul,
        neg_mul, neg_neg] at hd3 hd5 hcA ⊢ <;> omega
  have eB : kMB d' (d.mo.wK w) dir (d.sh.vDir vA) = d.mo.gK gB := by
    refine InK.eq_of_dvd (kMB_in h' (by rw [hwo]; exact hw) hkIn _ _) (h.ghash.mem _ H.gBG) ?_
    unfold kMB
    rw [hvG2, hgK]
    have hd3 := addK_dvd (d.mo.gK gD) (mulK (sgn dir * sgn (d.sh.vDir vA)) (d.mo.wK w))
    generalize d.sh.vDir vA = dA at hd3 hd5 hcA hcB ⊢
    cases dir <;> simp only [Bool.not_false, Bool.not_true] at vBn vBd <;> rw [vBn, vBd] at hcB <;>
      cases dA <;> simp only [sgn_false, sgn_true, mul_one, mul_neg, Bool.not_false, Bool.not_true, one_mul,
        neg_mul, neg_neg] at hd3 hd5 hcB ⊢ <;> omega
  have fA : d'.mo.gHash (d.mo.gK gA) = false := by
    by_contra hh
    obtain ⟨x, hx, ex⟩ := (h'.ghash.hash _).1 (by simpa using hh)
    rw [hlG] at hx
    obtain ⟨n1, n2, hx⟩ := H.mG.1 hx
    rw [hgK] at ex
    exact n2 (h.ghash.inj _ hx _ H.gAG ex)
  have fB : d'.mo.gHash (d.mo.gK gB) = false := by
    by_contra hh
    obtain ⟨x, hx, ex⟩ := (h'.ghash.hash _).1 (by simpa using hh)
    rw [hlG] at hx
    obtain ⟨n1, n2, hx⟩ := H.mG.1 hx
    rw [hgK] at ex
    exact n1 (h.ghash.inj _ hx _ H.gBG ex)
  have fW : d'.mo.wHash |d.mo.wK w| = false := by
    by_contra hh
    obtain ⟨x, hx, ex⟩ := (h'.whash.hash _).1 (by simpa using hh)
    rw [hlW] at hx
    obtain ⟨n1, hx⟩ := Finset.mem_erase.1 hx
    rw [hwK] at ex
    exact n1 (h.whash.inj _ hx _ H.wW ex)
  have hAdd : AddOk P d' (d.mo.wK w) dir (d.sh.vDir vA) := {
    exist := by rw [hwo]; exact hw
    order := by rw [hord]; omega
    lt := by rw [hord]; omega
    k0 := h.whash.ne w H.wW
    kf := fW
    kA := by rw [eA]; exact fA
    kB := by rw [eB]; exact fB
    ne := by rw [eA, eB]; exact fun q => H.ngAB (h.ghash.inj _ H.gAG _ H.gBG q) }
  obtain ⟨vA', vB', gA', gB', w', ver', g', wb', gh', wh', N, R', wt', ph', hR', er'⟩ :=
    add_run (δ := δ) (tA := d.co.tau vA) (tB := d.co.tau vB) hP h' hkIn hAdd
  obtain ⟨H', live, liveG, liveW, av, avG, avW⟩ := N
  rw [hord, show d.order - 1 + 1 = d.order by omega] at er'
  have hrev : (Move.del δ dir : Move Q).rev d = .add δ (d.mo.wK w) dir (d.sh.vDir vA) (d.co.tau vA) (d.co.tau vB) := by
    simp only [Move.rev, H.egA, H.egB, H.evA, H.evB, H.ewA]
  rw [hlV, hlG, hlW, hsh, hira, hmas] at H'
  obtain ⟨i1, i2, i3, i4, i5⟩ := ins_iso (dir := dir) (dirW := d.sh.vDir vA) H.insHyp H'
  rw [H.V_eq, H.ins_del] at i1 i2 i3
  have hGe : insert gB (insert gA ((d.G.live.erase gA).erase gB)) = d.G.live := by
    have := H.gAG; have := H.gBG; have := H.ngAB
    ext v; simp only [Finset.mem_insert, Finset.mem_erase]; grind
  have hWe : insert w (d.W.live.erase w) = d.W.live := by
    have := H.wW
    ext v; simp only [Finset.mem_insert, Finset.mem_erase]; grind
  rw [hGe, H.ins_del] at i4
  rw [hWe, H.ins_del] at i5
  -- spins of the vertices that come back
  have spA : ∀ e, d.co.spin vA e = lineSpin d' d'.worm.ira dir := by
    have a1 := spin_end h.spin H.gCG (!dir)
    have a2 := spin_end h.spin H.gCG dir
    have b2 := spin_end h'.spin (g := gC) (by rw [hlG]; exact H.mG.2 ⟨H.ngBC.symm, H.ngAC.symm, H.gCG⟩) dir
    rw [H.gC_A, Bool.not_not] at a1
    rw [hsh, H.C_C, hco, a2, ← a1] at b2
    have b3 : lineSpin d' d'.worm.ira dir = d.co.spin vA dir := by
      unfold lineSpin; rw [hvG1, hsh, hco]; exact b2.symm
    rw [b3]
    intro e
    cases e <;> cases dir <;> first | rfl | exact sA | exact sA.symm
  have spB : ∀ e, d.co.spin vB e = lineSpin d' d'.worm.masha dir := by
    have a1 := spin_end h.spin H.gDG (!dir)
    have a2 := spin_end h.spin H.gDG dir
    have b2 := spin_end h'.spin (g := gD) (by rw [hlG]; exact H.mG.2 ⟨H.ngBD.symm, H.ngAD.symm, H.gDG⟩) dir
    rw [H.gD_B, Bool.not_not] at a1
    rw [hsh, H.D_D, hco, a2, ← a1] at b2
    have b3 : lineSpin d' d'.worm.masha dir = d.co.spin vB dir := by
      unfold lineSpin; rw [hvG2, hsh, hco]; exact b2.symm
    rw [b3]
    intro e
    cases e <;> cases dir <;> first | rfl | exact sB | exact sB.symm
  have rsA : d'.co.r (d'.sh.gV (d'.sh.vG d'.worm.ira dir) dir) = d.co.r vA := by
    rw [hvG1, hsh, H.C_C, hco, rA]
  have rsB : d'.co.r (d'.sh.gV (d'.sh.vG d'.worm.masha dir) dir) = d.co.r vB := by
    rw [hvG2, hsh, H.D_D, hco, rB]
  have hin := H.insHyp
  have casesV : ∀ v ∈ d.Ver.live, v = vA ∨ v = vB ∨ (v ≠ vA ∧ v ≠ vB ∧ v ≠ vA' ∧ v ≠ vB') := by
    intro v hv
    by_cases c1 : v = vA
    · exact Or.inl c1
    by_cases c2 : v = vB
    · exact Or.inr (Or.inl c2)
    have hv' := H.mV.2 ⟨c2, c1, hv⟩
    exact Or.inr (Or.inr ⟨c1, c2, (H'.neV H'.hA hv').symm, (H'.neV H'.hB hv').symm⟩)
  have casesG : ∀ v ∈ d.G.live, v = gA ∨ v = gB ∨ (v ≠ gA ∧ v ≠ gB ∧ v ≠ gA' ∧ v ≠ gB') := by
    intro v hv
    by_cases c1 : v = gA
    · exact Or.inl c1
    by_cases c2 : v = gB
    · exact Or.inr (Or.inl c2)
    have hv' := H.mG.2 ⟨c2, c1, hv⟩
    exact Or.inr (Or.inr ⟨c1, c2, (H'.neG H'.hgA hv').symm, (H'.neG H'.hgB hv').symm⟩)
  have casesW : ∀ v ∈ d.W.live, v = w ∨ (v ≠ w ∧ v ≠ w') := by
    intro v hv
    by_cases c1 : v = w
    · exact Or.inl c1
    have hv' := Finset.mem_erase.2 ⟨c1, hv⟩
    exact Or.inr ⟨c1, fun c => H'.hw (c ▸ hv')⟩
  have e1 := ren2_a vA vB vA' vB'
  have e2 := ren2_b H.nAB vA' vB'
  have e3 := ren2_a gA gB gA' gB'
  have e4 := ren2_b H.ngAB gA' gB'
  have e5 := ren2_a w w w' w'
  have hparts : ∀ b, SameParts d { setAdd d' δ (d.mo.wK w) dir (d.sh.vDir vA) (d.co.tau vA) (d.co.tau vB)
      vA' vB' gA' gB' w' ver' g' wb' gh' wh' with weight := b, phase := ph', wt := wt' }
      (ren2 vA vB vA' vB') (ren2 gA gB gA' gB') (ren2 w w w' w') := by
    intro b
    constructor
    · show d'.order + 1 = _; rw [hord]; omega
    · show d'.sfl = _; rw [hd']; rfl
    · exact ren2_bij hin.hA hin.hB hin.hAB H'.hA H'.hB H'.hAB H.V_eq.symm (by show ver'.live = _; rw [live, hlV])
    · exact ren2_bij hin.hgA hin.hgB hin.hgAB H'.hgA H'.hgB H'.hgAB hGe.symm (by show g'.live = _; rw [liveG, hlG])
    · have hb := hin.hw
      have hb' := H'.hw
      have hl : wb'.live = insert w' (d.W.live.erase w) := by rw [liveW, hlW]
      show Set.BijOn _ _ (wb'.live : Set ℕ)
      rw [hl]
      refine ⟨?_, ?_, ?_⟩
      · intro x hx
        simp only [Finset.mem_coe, Finset.mem_insert, ren2] at hx ⊢
        by_cases c : x = w
        · simp [c]
        · right; simp [c, hx]
      · intro x hx y hy q
        have hx : x ∈ d.W.live := hx
        have hy : y ∈ d.W.live := hy
        rcases casesW x hx with rfl | ⟨n1, n2⟩ <;> rcases casesW y hy with rfl | ⟨n3, n4⟩
        · rfl
        · rw [e5, ren2_o n3 n3] at q; exact absurd q.symm n4
        · rw [e5, ren2_o n1 n1] at q; exact absurd q n2
        · rw [ren2_o n1 n1, ren2_o n3 n3] at q; exact q
      · intro y hy
        simp only [Finset.mem_coe, Finset.mem_insert] at hy
        rcases hy with rfl | hy
        · exact ⟨w, H.wW, e5⟩
        · obtain ⟨n1, hy⟩ := Finset.mem_erase.1 hy
          exact ⟨y, hy, ren2_o n1 n1 _ _⟩
    · show ver'.avail = _
      have := h.count.ver
      rw [av, hd']; show ver.avail + 2 = _; omega
    · show g'.avail = _
      have := h.count.g
      rw [avG, hd']; show g.avail + 2 = _; omega
    · show wb'.avail = _
      rw [avW, hd']; show wb.avail + 1 = _; omega
    · intro v hv e
      show (insShape d'.sh dir (d.sh.vDir vA) d'.worm.ira d'.worm.masha vA' vB' gA' gB' w').vG _ e = _
      rw [hsh, hira, hmas]; exact i1 v hv e
    · intro v hv
      show (insShape d'.sh dir (d.sh.vDir vA) d'.worm.ira d'.worm.masha vA' vB' gA' gB' w').vW _ = _
      rw [hsh, hira, hmas]; exact i2 v hv
    · intro v hv
      show (insShape d'.sh dir (d.sh.vDir vA) d'.worm.ira d'.worm.masha vA' vB' gA' gB' w').vDir _ = _
      rw [hsh, hira, hmas]; exact i3 v hv
    · intro v hv e
      show (insShape d'.sh dir (d.sh.vDir vA) d'.worm.ira d'.worm.masha vA' vB' gA' gB' w').gV _ e = _
      rw [hsh, hira, hmas]; exact i4 v hv e
    · intro v hv e
      show (insShape d'.sh dir (d.sh.vDir vA) d'.worm.ira d'.worm.masha vA' vB' gA' gB' w').wV _ e = _
      rw [hsh, hira, hmas]; exact i5 v hv e
    · intro _ v hv
      rcases casesV v hv with rfl | rfl | ⟨n1, n2, n3, n4⟩
      · rw [e1]
        refine ⟨?_, ?_, ?_⟩
        · show upd (upd _ _ _) _ _ _ = _
          rw [upd_ne _ _ H'.hAB, upd_same]; exact rsA
        · show upd (upd _ _ _) _ _ _ = _
          rw [upd_ne _ _ H'.hAB, upd_same]
        · show upd (upd _ _ _) _ _ _ = _
          rw [upd_ne _ _ H'.hAB, upd_same]; funext e; exact (spA e).symm
      · rw [e2]
        refine ⟨?_, ?_, ?_⟩
        · show upd (upd _ _ _) _ _ _ = _
          rw [upd_same]; exact rsB
        · show upd (upd _ _ _) _ _ _ = _
          rw [upd_same]
        · show upd (upd _ _ _) _ _ _ = _
          rw [upd_same]; funext e; exact (spB e).symm
      · rw [ren2_o n1 n2]
        refine ⟨?_, ?_, ?_⟩ <;> (show upd (upd _ _ _) _ _ _ = _) <;> rw [upd_ne _ _ n4, upd_ne _ _ n3, hco]
    · intro x hx
      rcases casesG x hx with rfl | rfl | ⟨n1, n2, n3, n4⟩
      · rw [e3]; show upd (upd _ _ _) _ _ _ = _
        rw [upd_ne _ _ H'.hgAB, upd_same, eA]
      · rw [e4]; show upd (upd _ _ _) _ _ _ = _
        rw [upd_same, eB]
      · rw [ren2_o n1 n2]; show upd (upd _ _ _) _ _ _ = _
        rw [upd_ne _ _ n4, upd_ne _ _ n3, hgK]
    · intro x hx
      rcases casesW x hx with rfl | ⟨n1, n2⟩
      · rw [e5]; show upd _ _ _ _ = _; rw [upd_same]
      · rw [ren2_o n1 n1]; show upd _ _ _ _ = _; rw [upd_ne _ _ n2, hwK]
    · intro x hx
      rcases casesG x hx with rfl | rfl | ⟨n1, n2, n3, n4⟩
      · rw [e3, mA, aA]
        constructor <;> (show upd (upd _ _ _) _ _ _ = _) <;> rw [upd_ne _ _ H'.hgAB, upd_same]
      · rw [e4, mB, aB]
        constructor <;> (show upd (upd _ _ _) _ _ _ = _) <;> rw [upd_same]
      · rw [ren2_o n1 n2]
        constructor <;> (show upd (upd _ _ _) _ _ _ = _) <;> rw [upd_ne _ _ n4, upd_ne _ _ n3, hfl]
    · intro x hx
      rcases casesW x hx with rfl | ⟨n1, n2⟩
      · rw [e5, mW, oW, dW, aW]
        refine ⟨?_, ?_, ?_, ?_⟩ <;> (show upd _ _ _ _ = _) <;> rw [upd_same]
      · rw [ren2_o n1 n1]
        refine ⟨?_, ?_, ?_, ?_⟩ <;> (show upd _ _ _ _ = _) <;> rw [upd_ne _ _ n2, hfl]
    · show d'.worm.exist = _; rw [hwo]
    · intro _
      refine ⟨?_, ?_, ?_, ?_, ?_⟩
      · rw [ren2_o H.nAi.symm H.nBi.symm]; exact hira
      · rw [ren2_o H.nAm.symm H.nBm.symm]; exact hmas
      · show subK d'.worm.k (mulK (sgn (d.sh.vDir vA)) (d.mo.wK w)) = _
        have hk : d'.worm.k = addK d.worm.k (mulK (sgn (d.sh.vDir vA)) (d.mo.wK w)) := by rw [hwo]
        rw [hk]
        have i1 := h.worm.k_in hw
        have i2 := mulK_sgn_in (d.sh.vDir vA) hkIn
        have d1 := addK_dvd d.worm.k (mulK (sgn (d.sh.vDir vA)) (d.mo.wK w))
        have d2 := subK_dvd (addK d.worm.k (mulK (sgn (d.sh.vDir vA)) (d.mo.wK w))) (mulK (sgn (d.sh.vDir vA)) (d.mo.wK w))
        exact InK.eq_of_dvd (subK_in (addK_in i1 i2) i2) i1 (by omega)
      · show d'.worm.dSpin = _; rw [hwo]
      · show d'.worm.wt = _; rw [hwo]
    · show d'.measG = _; rw [hd']; rfl
    · intro c
      have hg := (h.meas.g_flag _ (h.meas.g_mem c)).2 ⟨c, rfl⟩
      rw [ren2_o (fun q => by rw [q, mA] at hg; cases hg) (fun q => by rw [q, mB] at hg; cases hg)]
      show d'.gMeasure = _; rw [hd']; rfl
    · intro c
      have hg := (h.meas.w_flag _ (h.meas.w_mem c)).2 ⟨c, rfl⟩
      rw [ren2_o (fun q => by rw [q, mW] at hg; cases hg) (fun q => by rw [q, mW] at hg; cases hg)]
      show d'.wMeasure = _; rw [hd']; rfl
    · show d'.hasGamma = _; rw [hd']; rfl
    · intro _; show d'.ext = _; rw [hd']; rfl
  refine bal_core hP h h' hu e ha hd hp rfl (delFactor_pos hP r1 r0)
    (by rw [mul_comm]; exact add_del_factor hP r0 r1)
    (by
      rw [hrev]
      refine ⟨addDel_idx P δ, hkIn, (h.dom _ H.vAV).2, (h.dom _ H.vBV).2, ?_⟩
      intro q
      have t := hdt q w H.wW (by rw [dW, q])
      have b1 := h.topo.wV_vW vA H.vAV
      have b2 := h.topo.wV_vW vB H.vBV
      rw [H.ewA] at b1
      rw [H.ewB, H.dirB] at b2
      cases hq : d.sh.vDir vA <;> rw [hq] at b1 b2 <;> simp only [Bool.not_false, Bool.not_true] at b2 <;>
        rw [b1, b2] at t
      · exact t.symm
      · exact t) (by rw [hrev]; rfl) (by rw [hrev]; exact er') rfl
    (hR' ((hparts 0).nonZero h (by omega))) (hparts _) ?_
  rw [hrev]
  subst hd'
  exact del_sector hP hf ho hoe hmx ow

end
end Feyn
