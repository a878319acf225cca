import Verif.Proof.WormG

/-! # Time changes preserve consistency -/

set_option linter.unusedSectionVars false
set_option linter.unusedSimpArgs false

namespace Feyn
variable {Q F : Type} [Field Q] [LinearOrder Q] [IsStrictOrderedRing Q] [Field F]

/-- The weights of the two fermion lines of `v` after moving `v` to the time `T`. -/
theorem tau_g {P : Params Q F} {d : Diag Q F} (h : Inv P d) {v : ℕ} (hv : v ∈ d.Ver.live) (T : Q)
    {gin gout : ℕ} (hgi : d.sh.vG v IN = gin) (hgo : d.sh.vG v OUT = gout) {X1 X2 : F}
    (hX1 : (if gin = gout then
      gW0 P d.ext (d.co.r (d.sh.gV gin IN)) (d.co.r v) T T (d.co.spin (d.sh.gV gin IN) OUT) (d.co.spin v IN)
        (d.fl.gMeas gin) (d.fl.gGam gin)
      else gW0 P d.ext (d.co.r (d.sh.gV gin IN)) (d.co.r v) (d.co.tau (d.sh.gV gin IN)) T
        (d.co.spin (d.sh.gV gin IN) OUT) (d.co.spin v IN) (d.fl.gMeas gin) (d.fl.gGam gin)) = X1)
    (hX2 : gW0 P d.ext (d.co.r v) (d.co.r (d.sh.gV gout OUT)) T (d.co.tau (d.sh.gV gout OUT))
      (d.co.spin v OUT) (d.co.spin (d.sh.gV gout OUT) IN) (d.fl.gMeas gout) (d.fl.gGam gout) = X2)
    (hne1 : X1 ≠ 0) (hne2 : gin ≠ gout → X2 ≠ 0) {wt' : ℕ → F}
    (hwt : wt' = if gin = gout then upd d.wt.gWt gin X1 else upd (upd d.wt.gWt gin X1) gout X2) :
    (∀ g ∈ d.G.live, wt' g = gExpected P d.sh { d.co with tau := upd d.co.tau v T } d.fl d.ext g) ∧
    (∀ g ∈ d.G.live, wt' g ≠ 0) ∧
    (∏ g ∈ d.G.live, wt' g) = (∏ g ∈ d.G.live, d.wt.gWt g) *
      (if gin = gout then X1 / d.wt.gWt gin else X1 * X2 / (d.wt.gWt gin * d.wt.gWt gout)) := by
  have hmi : gin ∈ d.G.live := hgi ▸ h.topo.vG_mem v hv IN
  have hmo : gout ∈ d.G.live := hgo ▸ h.topo.vG_mem v hv OUT
  have ei : d.sh.gV gin OUT = v := hgi ▸ h.topo.gV_vG v hv IN
  have eo : d.sh.gV gout IN = v := hgo ▸ h.topo.gV_vG v hv OUT
  have hni := h.line.g_ne gin hmi
  have hno := h.line.g_ne gout hmo
  have key : ∀ g ∈ d.G.live, g ≠ gin → g ≠ gout → d.sh.gV g IN ≠ v ∧ d.sh.gV g OUT ≠ v := by
    intro g hg n1 n2
    refine ⟨fun e => n2 ?_, fun e => n1 ?_⟩
    · rw [← hgo, ← e]; exact (h.topo.vG_gV g hg IN).symm
    · rw [← hgi, ← e]; exact (h.topo.vG_gV g hg OUT).symm
  by_cases c : gin = gout
  · simp only [if_pos c] at hX1 hwt ⊢
    subst c
    refine ⟨?_, ?_, ?_⟩
    · intro g hg
      rw [hwt, upd_apply]
      split_ifs with e
      · subst e; rw [← hX1]; simp [gExpected, ei, eo]
      · obtain ⟨n1, n2⟩ := key g hg e e
        rw [h.line.g_eq g hg]; simp [gExpected, upd_ne _ _ n1, upd_ne _ _ n2]
    · intro g hg
      rw [hwt, upd_apply]
      split_ifs
      · exact hne1
      · exact h.line.g_ne g hg
    · rw [hwt, prod_upd hmi hni]
  · simp only [if_neg c] at hX1 hwt ⊢
    have a1 : d.sh.gV gin IN ≠ v := by
      intro e; apply c; rw [← hgo, ← e]; exact (h.topo.vG_gV gin hmi IN).symm
    have a2 : d.sh.gV gout OUT ≠ v := by
      intro e; apply c; rw [← hgi, ← e]; exact (h.topo.vG_gV gout hmo OUT)
    refine ⟨?_, ?_, ?_⟩
    · intro g hg
      rw [hwt, upd_apply, upd_apply]
      split_ifs with e e'
      · subst e; rw [← hX2]; simp [gExpected, eo, upd_ne _ _ a2]
      · subst e'; rw [← hX1]; simp [gExpected, ei, upd_ne _ _ a1]
      · obtain ⟨n1, n2⟩ := key g hg e' e
        rw [h.line.g_eq g hg]; simp [gExpected, upd_ne _ _ n1, upd_ne _ _ n2]
    · intro g hg
      rw [hwt, upd_apply, upd_apply]
      split_ifs
      · exact hne2 c
      · exact hne1
      · exact h.line.g_ne g hg
    · have e : upd d.wt.gWt gin X1 gout = d.wt.gWt gout := upd_ne _ _ (fun x => c x.symm)
      rw [hwt, prod_upd hmo (by rw [e]; exact hno), prod_upd hmi hni, e]
      field_simp

theorem changeTauCore_good {P : Params Q F} (hP : P.Wf) {d : Diag Q F} (h : Inv P d)
    (ho : d.order ≠ 0) {v : ℕ} (hv : v ∈ d.Ver.live) {T : Q} (hT : TauIn P T) {u : Q} (hu : 0 ≤ u) :
    Good P d (changeTauCore P d v T u) := by
  have hw := h.topo.vW_mem v hv
  have hgi := h.topo.vG_mem v hv IN
  have hgo := h.topo.vG_mem v hv OUT
  have ha := h.topo.gV_mem _ hgi IN
  have hb := h.topo.gV_mem _ hgo OUT
  have hx := h.topo.wV_mem _ hw (!d.sh.vDir v)
  have hfar := h.topo.far_ne hv
  unfold changeTauCore
  simp only [deref_live hv, deref_live hw, deref_live hgi, deref_live hgo, deref_live ha, deref_live hb,
    deref_live hx, Res.ok_bind, if_neg hfar]
  by_cases c0 : d.fl.wDelta (d.sh.vW v) = true
  · rw [if_pos c0]; exact good_skip h
  rw [if_neg c0]
  have hdm : d.fl.wDelta (d.sh.vW v) = true → d.fl.wMeas (d.sh.vW v) = false := fun e => absurd e c0
  have hL := wW_line h.topo hv P d.ext d.co.r (upd d.co.tau v T) d.co.spin (d.fl.wWorm (d.sh.vW v)) _ _
    (d.fl.wGam (d.sh.vW v)) hdm
  rw [upd_same, upd_ne _ _ hfar] at hL
  rw [hL]
  generalize hXw : wW0 P d.ext _ _ _ _ _ _ _ _ _ _ = Xw
  generalize hX2 : gW0 P d.ext (d.co.r v) (d.co.r (d.sh.gV (d.sh.vG v OUT) OUT)) T _ _ _ _ _ = X2
  generalize hX1 : (if d.sh.vG v IN = d.sh.vG v OUT then gW0 P d.ext _ _ T T _ _ _ _
    else gW0 P d.ext _ _ _ T _ _ _ _) = X1
  refine good_metropolis h (h.order_lt hP) fun hacc => ?_
  have hr := ratio_ne_zero hu hacc
  have hne1 : X1 ≠ 0 := by rintro rfl; simp at hr
  have hneW : Xw ≠ 0 := by rintro rfl; simp at hr
  have hne2 : d.sh.vG v IN ≠ d.sh.vG v OUT → X2 ≠ 0 := by rintro c rfl; simp [c] at hr
  have hw0 := h.line.w_ne _ hw
  have hweight := h.weight
  rw [if_neg ho] at hweight
  obtain ⟨k1, k2, k3⟩ := tau_g h hv T rfl rfl hX1 hX2 hne1 hne2
    (wt' := if d.sh.vG v OUT = d.sh.vG v IN then upd d.wt.gWt (d.sh.vG v IN) X1
      else upd (upd d.wt.gWt (d.sh.vG v IN) X1) (d.sh.vG v OUT) X2) (by simp only [eq_comm])
  refine ⟨_, rfl, ?_⟩
  exact {
    count := count_same h ho rfl rfl rfl rfl
    topo := h.topo
    kcons := h.kcons
    ghash := h.ghash
    whash := h.whash
    spin := h.spin
    worm := h.worm
    meas := h.meas
    delta := h.delta
    gamma := h.gamma
    dom := by
      intro x hx
      obtain ⟨d1, d2⟩ := h.dom x hx
      refine ⟨d1, ?_⟩
      simp only [upd_apply]; split_ifs
      · exact hT
      · exact d2
    ext := h.ext
    line := {
      g_eq := k1
      g_ne := k2
      w_eq := by
        intro w' hw'
        by_cases e : w' = d.sh.vW v
        · subst e; simp [wExpected, hXw]
        · have := h.line.w_eq w' hw'
          have n1 : ∀ x, d.sh.wV w' x ≠ v := fun x hx =>
              e ((h.topo.vW_wV _ hw' x).symm.trans (by rw [hx]))
          simp only [wExpected, upd_ne _ _ e, upd_ne _ _ (n1 _)] at this ⊢
          exact this
      w_ne := by
        intro w' hw'
        simp only [upd_apply]; split_ifs
        · exact hneW
        · exact h.line.w_ne w' hw' }
    weight := by
      simp only [if_neg ho]
      rw [total_updW hw hw0, hweight]
      unfold totalWeight
      simp only
      rw [k3]
      split_ifs <;> field_simp
    phase := by simp only [h.phase, map_mul]
    sign := h.sign }

theorem deltaCore_good {P : Params Q F} (hP : P.Wf) {d : Diag Q F} (h : Inv P d)
    (ho : d.order ≠ 0) {w : ℕ} (hw : w ∈ d.W.live) (hwm : d.fl.wMeas w = false)
    (hwg : d.fl.wGam w = false) {toDelta : Bool} {T : Q} (hT : TauIn P T) {factor u : Q} (hu : 0 ≤ u) :
    Good P d (deltaCore P d toDelta w T factor u) := by
  have hx := h.topo.wV_mem w hw IN
  have hv := h.topo.wV_mem w hw OUT
  have hgi := h.topo.vG_mem _ hv IN
  have hgo := h.topo.vG_mem _ hv OUT
  have ha := h.topo.gV_mem _ hgi IN
  have hb := h.topo.gV_mem _ hgo OUT
  have hfar := h.topo.wV_ne hw
  unfold deltaCore
  simp only [deref_live hv, deref_live hgi, deref_live hgo, deref_live ha, deref_live hb,
    deref_live hx, Res.ok_bind, gW_eq, Bool.true_eq_false, if_false]
  generalize hvn : d.sh.wV w OUT = v at *
  generalize hXw : wW0 P d.ext _ _ _ _ _ _ _ _ _ _ = Xw
  generalize hX2 : gW0 P d.ext (d.co.r v) (d.co.r (d.sh.gV (d.sh.vG v OUT) OUT)) T _ _ _ _ _ = X2
  generalize hX1 : (if d.sh.vG v IN = d.sh.vG v OUT then gW0 P d.ext _ _ T T _ _ _ _
    else gW0 P d.ext _ _ _ T _ _ _ _) = X1
  refine good_metropolis h (h.order_lt hP) fun hacc => ?_
  have hr := ratio_ne_zero hu hacc
  have hne1 : X1 ≠ 0 := by rintro rfl; simp at hr
  have hneW : Xw ≠ 0 := by rintro rfl; simp at hr
  have hne2 : d.sh.vG v IN ≠ d.sh.vG v OUT → X2 ≠ 0 := by rintro c rfl; simp [c] at hr
  have hw0 := h.line.w_ne _ hw
  have hweight := h.weight
  rw [if_neg ho] at hweight
  obtain ⟨k1, k2, k3⟩ := tau_g h hv T rfl rfl hX1 hX2 hne1 hne2
    (wt' := if d.sh.vG v IN = d.sh.vG v OUT then upd d.wt.gWt (d.sh.vG v IN) X1
      else upd (upd d.wt.gWt (d.sh.vG v IN) X1) (d.sh.vG v OUT) X2) rfl
  refine ⟨_, rfl, ?_⟩
  exact {
    count := count_same h ho rfl rfl rfl rfl
    topo := h.topo
    kcons := h.kcons
    ghash := h.ghash
    whash := h.whash
    spin := h.spin
    worm := h.worm
    meas := h.meas
    delta := by
      intro w' hw'
      simp only [upd_apply]; split_ifs with e
      · subst e; intro _; exact ⟨hwm, hwg⟩
      · exact h.delta w' hw'
    gamma := h.gamma
    dom := by
      intro x hx
      obtain ⟨d1, d2⟩ := h.dom x hx
      refine ⟨d1, ?_⟩
      simp only [upd_apply]; split_ifs
      · exact hT
      · exact d2
    ext := h.ext
    line := {
      g_eq := k1
      g_ne := k2
      w_eq := by
        intro w' hw'
        by_cases e : w' = w
        · subst e; simp [wExpected, hXw, hvn, upd_ne _ _ hfar]
        · have := h.line.w_eq w' hw'
          have n1 : ∀ x, d.sh.wV w' x ≠ v := fun x hx => by
              rw [← hvn] at hx; exact e (h.topo.wV_inj hw' hw hx).1
          simp only [wExpected, upd_ne _ _ e, upd_ne _ _ (n1 _)] at this ⊢
          exact this
      w_ne := by
        intro w' hw'
        simp only [upd_apply]; split_ifs
        · exact hneW
        · exact h.line.w_ne w' hw' }
    weight := by
      simp only [if_neg ho]
      rw [total_updW hw hw0, hweight]
      unfold totalWeight
      simp only
      rw [k3]
      split_ifs <;> field_simp
    phase := by simp only [h.phase, map_mul]
    sign := h.sign }

theorem delta2contCore_good {P : Params Q F} (hP : P.Wf) {d : Diag Q F} (h : Inv P d)
    (ho : d.order ≠ 0) {w : ℕ} (hw : w ∈ d.W.live) {T : Q} (hT : TauIn P T) {u : Q} (hu : 0 ≤ u) :
    Good P d (delta2contCore P d w T u) := by
  unfold delta2contCore
  simp only [deref_live hw, Res.ok_bind]
  split_ifs with c
  · exact good_skip h
  · simp only [Bool.or_eq_true, not_or, Bool.not_eq_true] at c
    exact deltaCore_good hP h ho hw c.1.2 c.2 hT hu

theorem cont2deltaCore_good {P : Params Q F} (hP : P.Wf) {d : Diag Q F} (h : Inv P d)
    (ho : d.order ≠ 0) {w : ℕ} (hw : w ∈ d.W.live) {u : Q} (hu : 0 ≤ u) :
    Good P d (cont2deltaCore P d w u) := by
  have hx := h.topo.wV_mem w hw IN
  have hv := h.topo.wV_mem w hw OUT
  unfold cont2deltaCore
  simp only [deref_live hw, deref_live hx, deref_live hv, Res.ok_bind]
  split_ifs with c
  · exact good_skip h
  · simp only [Bool.or_eq_true, not_or, Bool.not_eq_true] at c
    exact deltaCore_good hP h ho hw c.1.2 c.2 (h.dom _ hx).2 hu

end Feyn
