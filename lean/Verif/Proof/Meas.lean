import Verif.Proof.Tau

/-! # Changing the measuring line, composite lines and jumps to order 0 preserve consistency -/

set_option linter.unusedSectionVars false
set_option linter.unusedSimpArgs false

namespace Feyn
variable {Q F : Type} [Field Q] [LinearOrder Q] [IsStrictOrderedRing Q] [Field F]

theorem Inv.noGamG {P : Params Q F} {d : Diag Q F} (h : Inv P d) (hγ : d.hasGamma ≠ 1) :
    ∀ g ∈ d.G.live, d.fl.gGam g = false := by
  intro g hg
  have := h.gamma.g_flag g hg
  by_contra hc
  exact hγ (this.1 (by simpa using hc)).1

theorem Inv.noGamW {P : Params Q F} {d : Diag Q F} (h : Inv P d) (hγ : d.hasGamma ≠ 2) :
    ∀ w ∈ d.W.live, d.fl.wGam w = false := by
  intro g hg
  have := h.gamma.w_flag g hg
  by_contra hc
  exact hγ (this.1 (by simpa using hc)).1

theorem Inv.noWorm {P : Params Q F} {d : Diag Q F} (h : Inv P d) (hw : d.worm.exist = false) :
    ∀ w ∈ d.W.live, d.fl.wWorm w = false := by
  intro w hw'
  have := h.worm.flag w hw'
  rw [hw] at this
  simpa using this

theorem g2wCore_good {P : Params Q F} (hP : P.Wf) {d : Diag Q F} (h : Inv P d)
    (ho : d.order ≠ 0) (hm : d.measG = true) (hγ : d.hasGamma = 0) {w : ℕ} (hw : w ∈ d.W.live)
    {u : Q} (hu : 0 ≤ u) : Good P d (g2wCore P d w u) := by
  have hg := h.meas.g_mem hm
  have ha := h.topo.gV_mem _ hg IN
  have hb := h.topo.gV_mem _ hg OUT
  have hx := h.topo.wV_mem _ hw IN
  have hy := h.topo.wV_mem _ hw OUT
  have hgg := h.noGamG (by omega)
  have hwg := h.noGamW (by omega)
  have hsp := h.spin _ hg
  unfold g2wCore
  simp only [deref_live hg, deref_live hw, deref_live ha, deref_live hb, deref_live hx, deref_live hy,
    Res.ok_bind]
  split_ifs with c0
  · exact good_skip h
  generalize hXw : wW0 P d.ext _ _ _ _ _ _ _ _ _ _ = Xw
  generalize hXg : gW0 P d.ext _ _ _ _ _ _ _ _ = Xg
  refine good_metropolis h (h.order_lt hP) fun hacc => ?_
  have hr := ratio_ne_zero hu hacc
  have hne1 : Xg ≠ 0 := by rintro rfl; simp at hr
  have hneW : Xw ≠ 0 := by rintro rfl; simp at hr
  have hw0 := h.line.w_ne _ hw
  have hg0 := h.line.g_ne _ hg
  have hweight := h.weight
  rw [if_neg ho] at hweight
  refine ⟨_, rfl, ?_⟩
  exact {
    count := count_same h ho rfl rfl rfl rfl
    topo := h.topo
    kcons := h.kcons
    ghash := h.ghash
    whash := h.whash
    spin := h.spin
    worm := h.worm
    meas := {
      g_mem := fun e => by cases e
      w_mem := fun _ => hw
      g_flag := by
        intro g' hg'
        have := h.meas.g_flag g' hg'
        simp only [upd_apply]
        split_ifs with e
        · simp
        · rw [this]; simp [e]
      w_flag := by
        intro w' hw'
        have := h.meas.w_flag w' hw'
        simp only [upd_apply]
        split_ifs with e
        · simp [e]
        · rw [this]; simp [e, hm] }
    delta := by
      intro w' hw' hd
      have := h.delta w' hw' hd
      simp only [upd_apply]
      rw [if_neg (by rintro rfl; exact c0 hd)]
      exact this
    gamma := {
      le := h.gamma.le
      g_flag := h.gamma.g_flag
      w_flag := h.gamma.w_flag
      g_ex := h.gamma.g_ex
      w_ex := h.gamma.w_ex
      g_meas := by intro g' hg' e; rw [hgg g' hg'] at e; cases e
      w_meas := by intro g' hg' e; rw [hwg g' hg'] at e; cases e }
    dom := h.dom
    ext := h.ext
    line := {
      g_eq := by
        intro g' hg'
        by_cases e : g' = d.gMeasure
        · subst e; simp [gExpected, hgg _ hg, ← hXg, hsp]
        · have := h.line.g_eq g' hg'
          simp only [gExpected, upd_ne _ _ e] at this ⊢
          exact this
      g_ne := by
        intro g' hg'
        simp only [upd_apply]; split_ifs
        · exact hne1
        · exact h.line.g_ne g' hg'
      w_eq := by
        intro w' hw'
        by_cases e : w' = w
        · subst e; simp [wExpected, hwg _ hw', ← hXw]
        · have := h.line.w_eq w' hw'
          simp only [wExpected, upd_ne _ _ e] at this ⊢
          exact this
      w_ne := by
        intro w' hw'
        simp only [upd_apply]; split_ifs
        · exact hneW
        · exact h.line.w_ne w' hw' }
    weight := by
      simp only [if_neg ho]
      rw [total_updW hw hw0, total_updG hg hg0, hweight]
      field_simp
    phase := by simp only [h.phase, map_mul]
    sign := h.sign }

theorem w2gCore_good {P : Params Q F} (hP : P.Wf) {d : Diag Q F} (h : Inv P d)
    (ho : d.order ≠ 0) (hm : d.measG = false) (hγ : d.hasGamma = 0) {g : ℕ} (hg : g ∈ d.G.live)
    {u : Q} (hu : 0 ≤ u) : Good P d (w2gCore P d g u) := by
  have hw := h.meas.w_mem hm
  have ha := h.topo.gV_mem _ hg IN
  have hb := h.topo.gV_mem _ hg OUT
  have hx := h.topo.wV_mem _ hw IN
  have hy := h.topo.wV_mem _ hw OUT
  have hgg := h.noGamG (by omega)
  have hwg := h.noGamW (by omega)
  have hsp := h.spin _ hg
  unfold w2gCore
  simp only [deref_live hg, deref_live hw, deref_live ha, deref_live hb, deref_live hx, deref_live hy,
    Res.ok_bind]
  split_ifs with c0
  · exact good_skip h
  generalize hXw : wW0 P d.ext _ _ _ _ _ _ _ _ _ _ = Xw
  generalize hXg : gW0 P d.ext _ _ _ _ _ _ _ _ = Xg
  refine good_metropolis h (h.order_lt hP) fun hacc => ?_
  have hr := ratio_ne_zero hu hacc
  have hne1 : Xg ≠ 0 := by rintro rfl; simp at hr
  have hneW : Xw ≠ 0 := by rintro rfl; simp at hr
  have hw0 := h.line.w_ne _ hw
  have hg0 := h.line.g_ne _ hg
  have hweight := h.weight
  rw [if_neg ho] at hweight
  refine ⟨_, rfl, ?_⟩
  exact {
    count := count_same h ho rfl rfl rfl rfl
    topo := h.topo
    kcons := h.kcons
    ghash := h.ghash
    whash := h.whash
    spin := h.spin
    worm := h.worm
    meas := {
      g_mem := fun _ => hg
      w_mem := fun e => by cases e
      g_flag := by
        intro g' hg'
        have := h.meas.g_flag g' hg'
        simp only [upd_apply]
        split_ifs with e
        · simp [e]
        · rw [this]; simp [e, hm]
      w_flag := by
        intro w' hw'
        have := h.meas.w_flag w' hw'
        simp only [upd_apply]
        split_ifs with e
        · simp
        · rw [this]; simp [e] }
    delta := by
      intro w' hw' hd
      have := h.delta w' hw' hd
      simp only [upd_apply]
      rw [if_neg (by rintro rfl; exact c0 hd)]
      exact this
    gamma := {
      le := h.gamma.le
      g_flag := h.gamma.g_flag
      w_flag := h.gamma.w_flag
      g_ex := h.gamma.g_ex
      w_ex := h.gamma.w_ex
      g_meas := by intro g' hg' e; rw [hgg g' hg'] at e; cases e
      w_meas := by intro g' hg' e; rw [hwg g' hg'] at e; cases e }
    dom := h.dom
    ext := h.ext
    line := {
      g_eq := by
        intro g' hg'
        by_cases e : g' = g
        · subst e; simp [gExpected, hgg _ hg', ← hXg, hsp]
        · have := h.line.g_eq g' hg'
          simp only [gExpected, upd_ne _ _ e] at this ⊢
          exact this
      g_ne := by
        intro g' hg'
        simp only [upd_apply]; split_ifs
        · exact hne1
        · exact h.line.g_ne g' hg'
      w_eq := by
        intro w' hw'
        by_cases e : w' = d.wMeasure
        · subst e; simp [wExpected, hwg _ hw', ← hXw]
        · have := h.line.w_eq w' hw'
          simp only [wExpected, upd_ne _ _ e] at this ⊢
          exact this
      w_ne := by
        intro w' hw'
        simp only [upd_apply]; split_ifs
        · exact hneW
        · exact h.line.w_ne w' hw' }
    weight := by
      simp only [if_neg ho]
      rw [total_updW hw hw0, total_updG hg hg0, hweight]
      field_simp
    phase := by simp only [h.phase, map_mul]
    sign := h.sign }

/-! ## Composite lines -/

/-- Without a composite line the external point is irrelevant. -/
theorem Inv.set_ext {P : Params Q F} {d : Diag Q F} (h : Inv P d) (hγ : d.hasGamma = 0) (e : Ext Q) :
    Inv P { d with ext := e } := by
  have hgg := h.noGamG (by omega)
  have hwg := h.noGamW (by omega)
  exact {
    count := ⟨h.count.verWf, h.count.gWf, h.count.wWf, h.count.n_pos, h.count.n_le, h.count.ver,
      h.count.g, h.count.order⟩
    topo := h.topo
    kcons := h.kcons
    ghash := h.ghash
    whash := h.whash
    spin := h.spin
    worm := h.worm
    meas := h.meas
    delta := h.delta
    gamma := h.gamma
    dom := h.dom
    ext := fun hn => absurd hγ hn
    line := {
      g_eq := by
        intro g hg
        rw [h.line.g_eq g hg]; simp [gExpected, hgg g hg, gW0]
      g_ne := h.line.g_ne
      w_eq := by
        intro w hw
        rw [h.line.w_eq w hw]; simp [wExpected, hwg w hw, wW0]
      w_ne := h.line.w_ne }
    weight := h.weight
    phase := h.phase
    sign := h.sign }

/-- As `Good`, but an early return or a rejection may change the external point while no line is composite. -/
def GoodExt (P : Params Q F) (d : Diag Q F) (r : Res (Out Q F)) : Prop :=
  ∃ out, r = .ok out ∧ Inv P out.d ∧
    (out.tag ≠ .accept → out.d = d ∨ (d.hasGamma = 0 ∧ out.d = { d with ext := out.d.ext }))

theorem Good.goodExt {P : Params Q F} {d : Diag Q F} {r : Res (Out Q F)} (h : Good P d r) : GoodExt P d r := by
  obtain ⟨out, e, hi, hu⟩ := h
  exact ⟨out, e, hi, fun t => Or.inl (hu t)⟩

theorem good_metropolis_ext {P : Params Q F} {d : Diag Q F} {e : Ext Q} {prob u : Q} {acc : Res (Diag Q F)}
    (h : Inv P d) (hγ : d.hasGamma = 0) (ho : d.order < MAX_ORDER)
    (ha : (1 ≤ prob ∨ u < prob) → ∃ d', acc = .ok d' ∧ Inv P d') :
    GoodExt P d (metropolis d { d with ext := e } prob u acc) := by
  unfold metropolis
  rw [if_pos ho]
  by_cases hp : 1 ≤ prob ∨ u < prob
  · obtain ⟨d', e, hd⟩ := ha hp
    rw [if_pos hp, e]
    exact ⟨_, rfl, hd, fun h => absurd rfl h⟩
  · rw [if_neg hp]
    exact ⟨_, rfl, h.set_ext hγ e, fun _ => Or.inr ⟨hγ, rfl⟩⟩

theorem toGGGammaGCore_good {P : Params Q F} (hP : P.Wf) {d : Diag Q F} (h : Inv P d)
    (ho : d.order ≠ 0) (hγ : d.hasGamma = 0) {g : ℕ} (hg : g ∈ d.G.live) {T : Q} (hT : TauIn P T)
    {u : Q} (hu : 0 ≤ u) : GoodExt P d (toGGGammaGCore P d g T u) := by
  have ha := h.topo.gV_mem _ hg IN
  have hb := h.topo.gV_mem _ hg OUT
  have hgg := h.noGamG (by omega)
  have hwg := h.noGamW (by omega)
  have hsp := h.spin _ hg
  unfold toGGGammaGCore
  simp only [deref_live hg, deref_live ha, deref_live hb, Res.ok_bind]
  split_ifs with c0
  · exact (good_skip h).goodExt
  generalize he : (⟨T, d.co.r (d.sh.gV g IN), UP⟩ : Ext Q) = e
  generalize hXg : gW0 P e _ _ _ _ _ _ _ _ = Xg
  refine good_metropolis_ext h hγ (h.order_lt hP) fun hacc => ?_
  rw [mul_assoc] at hacc
  have hr := ratio_ne_zero hu hacc
  have hne1 : Xg ≠ 0 := by rintro rfl; simp at hr
  have hg0 := h.line.g_ne _ hg
  have hweight := h.weight
  rw [if_neg ho] at hweight
  refine ⟨_, rfl, ?_⟩
  exact {
    count := count_same h ho rfl rfl rfl rfl
    topo := h.topo
    kcons := h.kcons
    ghash := h.ghash
    whash := h.whash
    spin := h.spin
    worm := h.worm
    meas := h.meas
    delta := h.delta
    gamma := {
      le := by norm_num
      g_flag := by
        intro g' hg'
        simp only [upd_apply]; split_ifs with e'
        · simp [e']
        · simp [hgg g' hg', Ne.symm e']
      w_flag := by intro w' hw'; simp [hwg w' hw']
      g_ex := fun _ => ⟨g, hg, by simp⟩
      w_ex := fun e => by cases e
      g_meas := by
        intro g' hg'
        simp only [upd_apply]; split_ifs with e'
        · subst e'; intro _; simpa using c0
        · intro e; rw [hgg g' hg'] at e; cases e
      w_meas := by intro g' hg' e; rw [hwg g' hg'] at e; cases e }
    dom := h.dom
    ext := fun _ => by
      rw [← he]; exact ⟨(h.dom _ ha).1, hT, rfl⟩
    line := {
      g_eq := by
        intro g' hg'
        by_cases e' : g' = g
        · subst e'; simp [gExpected, ← hXg, hsp, show d.fl.gMeas g' = false by simpa using c0]
        · have := h.line.g_eq g' hg'
          simp only [gExpected, upd_ne _ _ e', hgg g' hg'] at this ⊢
          rw [this]; exact gW0_ext ..
      g_ne := by
        intro g' hg'
        simp only [upd_apply]; split_ifs
        · exact hne1
        · exact h.line.g_ne g' hg'
      w_eq := by
        intro w' hw'
        have := h.line.w_eq w' hw'
        simp only [wExpected, hwg w' hw'] at this ⊢
        rw [this]; exact wW0_ext ..
      w_ne := h.line.w_ne }
    weight := by
      simp only [if_neg ho]
      rw [total_updG hg hg0, hweight]
    phase := by simp only [h.phase, map_mul]
    sign := h.sign }

theorem fromGGGammaGCore_good {P : Params Q F} (hP : P.Wf) {d : Diag Q F} (h : Inv P d)
    (ho : d.order ≠ 0) (hγ : d.hasGamma = 1) {u : Q} (hu : 0 ≤ u) :
    Good P d (fromGGGammaGCore P d u) := by
  obtain ⟨g, hg, hgt⟩ := h.gamma.g_ex hγ
  obtain ⟨-, hvin, hvout⟩ := (h.gamma.g_flag g hg).1 hgt
  have ha := h.topo.gV_mem _ hg IN
  have hb := h.topo.gV_mem _ hg OUT
  have hga : d.sh.vG (d.sh.gV g IN) OUT = g := h.topo.vG_gV g hg IN
  have hwg := h.noGamW (by omega)
  have hsp := h.spin _ hg
  have hgl := Bundle.live_lt hg
  have hgm := h.gamma.g_meas g hg hgt
  unfold fromGGGammaGCore
  simp only [hvin, hvout, Handle.read, if_pos hgl, hga, deref_live hg, deref_live ha, deref_live hb,
    Res.ok_bind]
  split_ifs with c0 c1 c2
  · exact good_skip h
  · exact good_skip h
  · exact good_skip h
  generalize hXg : gW0 P d.ext _ _ _ _ _ _ _ _ = Xg
  refine good_metropolis h (h.order_lt hP) fun hacc => ?_
  rw [mul_div_assoc] at hacc
  have hr := ratio_ne_zero hu hacc
  have hne1 : Xg ≠ 0 := by rintro rfl; simp at hr
  have hg0 := h.line.g_ne _ hg
  have hweight := h.weight
  rw [if_neg ho] at hweight
  have hoth : ∀ g' ∈ d.G.live, g' ≠ g → d.fl.gGam g' = false := by
    intro g' hg' hne
    have := h.gamma.g_flag g' hg'
    rw [hvin] at this
    simpa [hne.symm] using this
  refine ⟨_, rfl, ?_⟩
  exact {
    count := count_same h ho rfl rfl rfl rfl
    topo := h.topo
    kcons := h.kcons
    ghash := h.ghash
    whash := h.whash
    spin := h.spin
    worm := h.worm
    meas := h.meas
    delta := h.delta
    gamma := {
      le := by norm_num
      g_flag := by
        intro g' hg'
        simp only [upd_apply]; split_ifs with e'
        · simp
        · simp [hoth g' hg' e']
      w_flag := by intro w' hw'; simp [hwg w' hw']
      g_ex := fun e => by cases e
      w_ex := fun e => by cases e
      g_meas := by
        intro g' hg'
        simp only [upd_apply]; split_ifs with e'
        · simp
        · simp [hoth g' hg' e']
      w_meas := by intro g' hg' e; rw [hwg g' hg'] at e; cases e }
    dom := h.dom
    ext := fun hn => absurd rfl hn
    line := {
      g_eq := by
        intro g' hg'
        by_cases e' : g' = g
        · subst e'; simp [gExpected, ← hXg, hsp, hgm]
        · have := h.line.g_eq g' hg'
          simp only [gExpected, upd_ne _ _ e'] at this ⊢
          exact this
      g_ne := by
        intro g' hg'
        simp only [upd_apply]; split_ifs
        · exact hne1
        · exact h.line.g_ne g' hg'
      w_eq := h.line.w_eq
      w_ne := h.line.w_ne }
    weight := by
      simp only [if_neg ho]
      rw [total_updG hg hg0, hweight]
    phase := by simp only [h.phase, map_mul]
    sign := h.sign }

theorem toWWGammaWCore_good {P : Params Q F} (hP : P.Wf) {d : Diag Q F} (h : Inv P d)
    (ho : d.order ≠ 0) (hwo : d.worm.exist = false) (hγ : d.hasGamma = 0) {w : ℕ} (hw : w ∈ d.W.live)
    {T : Q} (hT : TauIn P T) {R : Site} (hR : SiteIn P R)
    {u : Q} (hu : 0 ≤ u) : GoodExt P d (toWWGammaWCore P d w T R u) := by
  have ha := h.topo.wV_mem _ hw IN
  have hb := h.topo.wV_mem _ hw OUT
  have hgg := h.noGamG (by omega)
  have hwg := h.noGamW (by omega)
  have hnw := h.noWorm hwo w hw
  unfold toWWGammaWCore
  simp only [deref_live hw, deref_live ha, deref_live hb, Res.ok_bind]
  split_ifs with c0 c1
  · exact (good_skip h).goodExt
  · exact (good_skip h).goodExt
  generalize he : (⟨T, R, UP⟩ : Ext Q) = e
  generalize hX : wW0 P e _ _ _ _ _ _ _ _ _ _ = X
  refine good_metropolis_ext h hγ (h.order_lt hP) fun hacc => ?_
  rw [mul_assoc] at hacc
  have hr := ratio_ne_zero hu hacc
  have hne1 : X ≠ 0 := by rintro rfl; simp at hr
  have hw0 := h.line.w_ne _ hw
  have hweight := h.weight
  rw [if_neg ho] at hweight
  refine ⟨_, rfl, ?_⟩
  exact {
    count := count_same h ho rfl rfl rfl rfl
    topo := h.topo
    kcons := h.kcons
    ghash := h.ghash
    whash := h.whash
    spin := h.spin
    worm := h.worm
    meas := h.meas
    delta := by
      intro w' hw' hd
      have := h.delta w' hw' hd
      refine ⟨this.1, ?_⟩
      simp only [upd_apply]
      rw [if_neg (by rintro rfl; exact c1 hd)]
      exact this.2
    gamma := {
      le := by norm_num
      w_flag := by
        intro g' hg'
        simp only [upd_apply]; split_ifs with e'
        · simp [e']
        · simp [hwg g' hg', Ne.symm e']
      g_flag := by intro w' hw'; simp [hgg w' hw']
      w_ex := fun _ => ⟨w, hw, by simp⟩
      g_ex := fun e => by cases e
      w_meas := by
        intro g' hg'
        simp only [upd_apply]; split_ifs with e'
        · subst e'; intro _; simpa using c0
        · intro e; rw [hwg g' hg'] at e; cases e
      g_meas := by intro g' hg' e; rw [hgg g' hg'] at e; cases e }
    dom := h.dom
    ext := fun _ => by
      rw [← he]; exact ⟨hR, hT, rfl⟩
    line := {
      w_eq := by
        intro g' hg'
        by_cases e' : g' = w
        · subst e'
          simp [wExpected, ← hX, hnw, show d.fl.wMeas g' = false by simpa using c0,
            show d.fl.wDelta g' = false by simpa using c1]
        · have := h.line.w_eq g' hg'
          simp only [wExpected, upd_ne _ _ e', hwg g' hg'] at this ⊢
          rw [this]; exact wW0_ext ..
      w_ne := by
        intro g' hg'
        simp only [upd_apply]; split_ifs
        · exact hne1
        · exact h.line.w_ne g' hg'
      g_eq := by
        intro w' hw'
        have := h.line.g_eq w' hw'
        simp only [gExpected, hgg w' hw'] at this ⊢
        rw [this]; exact gW0_ext ..
      g_ne := h.line.g_ne }
    weight := by
      simp only [if_neg ho]
      rw [total_updW hw hw0, hweight]
    phase := by simp only [h.phase, map_mul]
    sign := h.sign }

theorem fromWWGammaWCore_good {P : Params Q F} (hP : P.Wf) {d : Diag Q F} (h : Inv P d)
    (ho : d.order ≠ 0) (hwo : d.worm.exist = false) (hγ : d.hasGamma = 2) {u : Q} (hu : 0 ≤ u) :
    Good P d (fromWWGammaWCore P d u) := by
  obtain ⟨w, hw, hwt⟩ := h.gamma.w_ex hγ
  obtain ⟨-, hvin, hvout⟩ := (h.gamma.w_flag w hw).1 hwt
  have ha := h.topo.wV_mem _ hw IN
  have hb := h.topo.wV_mem _ hw OUT
  have hwa : d.sh.vW (d.sh.wV w IN) = w := h.topo.vW_wV w hw IN
  have hgg := h.noGamG (by omega)
  have hwl := Bundle.live_lt hw
  have hwm := h.gamma.w_meas w hw hwt
  have hnw := h.noWorm hwo w hw
  have hwd : d.fl.wDelta w = false := by
    by_contra hc
    have := (h.delta w hw (by simpa using hc)).2
    rw [hwt] at this; cases this
  unfold fromWWGammaWCore
  simp only [hvin, hvout, Handle.read, if_pos hwl, hwa, deref_live hw, deref_live ha, deref_live hb,
    Res.ok_bind]
  split_ifs with c0
  · exact good_skip h
  generalize hX : wW0 P d.ext _ _ _ _ _ _ _ _ _ _ = X
  refine good_metropolis h (h.order_lt hP) fun hacc => ?_
  rw [mul_div_assoc] at hacc
  have hr := ratio_ne_zero hu hacc
  have hne1 : X ≠ 0 := by rintro rfl; simp at hr
  have hw0 := h.line.w_ne _ hw
  have hweight := h.weight
  rw [if_neg ho] at hweight
  have hoth : ∀ w' ∈ d.W.live, w' ≠ w → d.fl.wGam w' = false := by
    intro g' hg' hne
    have := h.gamma.w_flag g' hg'
    rw [hvin] at this
    simpa [hne.symm] using this
  refine ⟨_, rfl, ?_⟩
  exact {
    count := count_same h ho rfl rfl rfl rfl
    topo := h.topo
    kcons := h.kcons
    ghash := h.ghash
    whash := h.whash
    spin := h.spin
    worm := h.worm
    meas := h.meas
    delta := by
      intro w' hw' hd
      have := h.delta w' hw' hd
      refine ⟨this.1, ?_⟩
      simp only [upd_apply]; split_ifs
      · rfl
      · exact this.2
    gamma := {
      le := by norm_num
      w_flag := by
        intro g' hg'
        simp only [upd_apply]; split_ifs with e'
        · simp
        · simp [hoth g' hg' e']
      g_flag := by intro w' hw'; simp [hgg w' hw']
      g_ex := fun e => by cases e
      w_ex := fun e => by cases e
      w_meas := by
        intro g' hg'
        simp only [upd_apply]; split_ifs with e'
        · simp
        · simp [hoth g' hg' e']
      g_meas := by intro g' hg' e; rw [hgg g' hg'] at e; cases e }
    dom := h.dom
    ext := fun hn => absurd rfl hn
    line := {
      w_eq := by
        intro g' hg'
        by_cases e' : g' = w
        · subst e'; simp [wExpected, ← hX, hwm, hnw, hwd]
        · have := h.line.w_eq g' hg'
          simp only [wExpected, upd_ne _ _ e'] at this ⊢
          exact this
      w_ne := by
        intro g' hg'
        simp only [upd_apply]; split_ifs
        · exact hne1
        · exact h.line.w_ne g' hg'
      g_eq := h.line.g_eq
      g_ne := h.line.g_ne }
    weight := by
      simp only [if_neg ho]
      rw [total_updW hw hw0, hweight]
    phase := by simp only [h.phase, map_mul]
    sign := h.sign }

end Feyn
