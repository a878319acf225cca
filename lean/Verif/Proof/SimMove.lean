import Verif.Proof.SimWorm

/-! # Time, delta-line, measuring-line, order-zero and composite-line updates on diagrams that differ in layout only -/

set_option linter.unusedSectionVars false
set_option linter.unusedSimpArgs false

namespace Feyn
variable {Q F : Type} [Field Q] [LinearOrder Q] [IsStrictOrderedRing Q] [Field F]
variable {P P' : Params Q F} {d d' : Diag Q F} {ρ : Ren} {B : BRel}

theorem changeTauCore_sim (T : TabEq P P') (hi : Inv P d) (S : Alike B ρ d d') {v : ℕ} (hv : v ∈ d.Ver.live) {tau : Q}
    (ht : TauIn P tau) (u : Q) :
    Res.Rel (OutSim B ρ) (changeTauCore P d v tau u) (changeTauCore P' d' (ρ.V v) tau u) := by
  have hw := hi.topo.vW_mem _ hv
  have hg := hi.topo.vG_mem _ hv
  have ha := hi.topo.gV_mem _ (hg IN) IN
  have hb := hi.topo.gV_mem _ (hg OUT) OUT
  have hx := hi.topo.wV_mem _ hw (!d.sh.vDir v)
  obtain ⟨rv, tv⟩ := hi.dom _ hv
  obtain ⟨ra, ta⟩ := hi.dom _ ha
  obtain ⟨rb, tb⟩ := hi.dom _ hb
  obtain ⟨rx, tx⟩ := hi.dom _ hx
  unfold changeTauCore
  simp only [deref_V, deref_W, deref_G, deref_live hv, deref_live hw, deref_live (hg _), deref_live ha, deref_live hb, deref_live hx, Res.ok_bind,
    S.vW _ hv, S.vG _ hv, S.vDir _ hv, S.gV _ (hg _), S.wV _ hw, EmbeddingLike.apply_eq_iff_eq,
    S.r _ hv, S.tau _ hv, S.spin _ hv, S.r _ ha, S.tau _ ha, S.spin _ ha, S.r _ hb, S.tau _ hb, S.spin _ hb, S.r _ hx, S.tau _ hx, S.spin _ hx,
    S.wMeas _ hw, S.wDelta _ hw, S.wGam _ hw, S.wWorm _ hw, S.wWt _ hw, S.gMeas _ (hg _), S.gGam _ (hg _), S.gWt _ (hg _),
    S.order, S.phase, S.weight, T.mod, T.ph, T.probTau, T.wW (S.wExt hi hw) (hi.dMeas hw) rv rx ht tx,
    T.wW (S.wExt hi hw) (hi.dMeas hw) rv rx ht ht, T.gW0 (S.gExt hi (hg IN)) ra rv ta ht, T.gW0 (S.gExt hi (hg IN)) ra rv ht ht,
    T.gW0 (S.gExt hi (hg OUT)) rv rb ht tb]
  refine .ite Iff.rfl (fun _ => skip_sim S) fun _ => ?_
  refine metropolis_sim S S rfl ?_
  refine { S with
    order := rfl, phase := rfl, weight := rfl
    tau := agree_upd S.tau _ _
    gWt := ?_
    wWt := agree_upd S.wWt _ _ }
  dsimp only
  split_ifs <;> first
    | exact agree_upd S.gWt _ _
    | exact agree_upd (agree_upd S.gWt _ _) _ _

theorem deltaCore_sim (T : TabEq P P') (hi : Inv P d) (S : Alike B ρ d d') (b : Bool) {w : ℕ} (hw : w ∈ d.W.live) {tau : Q}
    (ht : TauIn P tau) (f u : Q) :
    Res.Rel (OutSim B ρ) (deltaCore P d b w tau f u) (deltaCore P' d' b (ρ.W w) tau f u) := by
  have hv := hi.topo.wV_mem _ hw
  have hg := hi.topo.vG_mem _ (hv OUT)
  have ha := hi.topo.gV_mem _ (hg IN) IN
  have hb := hi.topo.gV_mem _ (hg OUT) OUT
  obtain ⟨rv, tv⟩ := hi.dom _ (hv IN)
  obtain ⟨rx, tx⟩ := hi.dom _ (hv OUT)
  obtain ⟨ra, ta⟩ := hi.dom _ ha
  obtain ⟨rb, tb⟩ := hi.dom _ hb
  unfold deltaCore
  simp only [deref_V, deref_W, deref_G, deref_live (hv _), deref_live (hg _), deref_live ha, deref_live hb, Res.ok_bind,
    S.wV _ hw, S.vG _ (hv _), S.gV _ (hg _), EmbeddingLike.apply_eq_iff_eq,
    S.r _ (hv _), S.tau _ (hv _), S.spin _ (hv _), S.r _ ha, S.tau _ ha, S.spin _ ha, S.r _ hb, S.tau _ hb, S.spin _ hb,
    S.wMeas _ hw, S.wGam _ hw, S.wWorm _ hw, S.wWt _ hw, S.gMeas _ (hg _), S.gGam _ (hg _), S.gWt _ (hg _),
    S.order, S.phase, S.weight, T.mod, T.ph, T.wW0 (S.wExt hi hw) rv rx tv ht,
    T.gW0 (S.gExt hi (hg IN)) ra rx ta ht, T.gW0 (S.gExt hi (hg IN)) ra rx ht ht,
    T.gW (S.gExt hi (hg OUT)) rb rx tb ht]
  refine metropolis_sim S S rfl ?_
  refine { S with
    order := rfl, phase := rfl, weight := rfl
    tau := agree_upd S.tau _ _
    wDelta := agree_upd S.wDelta _ _
    gWt := ?_
    wWt := agree_upd S.wWt _ _ }
  dsimp only
  split_ifs <;> first
    | exact agree_upd S.gWt _ _
    | exact agree_upd (agree_upd S.gWt _ _) _ _

theorem delta2contCore_sim (T : TabEq P P') (hi : Inv P d) (S : Alike B ρ d d') {w : ℕ} (hw : w ∈ d.W.live) {tau : Q}
    (ht : TauIn P tau) (u : Q) :
    Res.Rel (OutSim B ρ) (delta2contCore P d w tau u) (delta2contCore P' d' (ρ.W w) tau u) := by
  unfold delta2contCore
  simp only [deref_W, deref_live hw, Res.ok_bind, S.wMeas _ hw, S.wDelta _ hw, S.wGam _ hw, T.call, T.probTau]
  exact .ite Iff.rfl (fun _ => skip_sim S) fun _ => deltaCore_sim T hi S _ hw ht _ _

theorem cont2deltaCore_sim (T : TabEq P P') (hi : Inv P d) (S : Alike B ρ d d') {w : ℕ} (hw : w ∈ d.W.live) (u : Q) :
    Res.Rel (OutSim B ρ) (cont2deltaCore P d w u) (cont2deltaCore P' d' (ρ.W w) u) := by
  have hv := hi.topo.wV_mem _ hw
  unfold cont2deltaCore
  simp only [deref_V, deref_W, deref_live hw, deref_live (hv _), Res.ok_bind, S.wV _ hw, S.tau _ (hv _), S.wMeas _ hw, S.wDelta _ hw,
    S.wGam _ hw, T.call, T.probTau]
  exact .ite Iff.rfl (fun _ => skip_sim S) fun _ => deltaCore_sim T hi S _ hw (hi.dom _ (hv IN)).2 _ _

theorem g2wCore_sim (T : TabEq P P') (hi : Inv P d) (S : Alike B ρ d d') (hm : d.measG = true) {w : ℕ} (hw : w ∈ d.W.live) (u : Q) :
    Res.Rel (OutSim B ρ) (g2wCore P d w u) (g2wCore P' d' (ρ.W w) u) := by
  have hg := hi.meas.g_mem hm
  have hv := hi.topo.gV_mem _ hg
  have hx := hi.topo.wV_mem _ hw
  obtain ⟨ra, ta⟩ := hi.dom _ (hv IN)
  obtain ⟨rb, tb⟩ := hi.dom _ (hv OUT)
  obtain ⟨rx, tx⟩ := hi.dom _ (hx IN)
  obtain ⟨ry, ty⟩ := hi.dom _ (hx OUT)
  unfold g2wCore
  simp only [S.gMeasure hm, deref_V, deref_W, deref_G, deref_live hw, deref_live hg, deref_live (hv _), deref_live (hx _), Res.ok_bind,
    S.gV _ hg, S.wV _ hw, S.r _ (hv _), S.tau _ (hv _), S.spin _ (hv _), S.r _ (hx _), S.tau _ (hx _), S.spin _ (hx _),
    S.wDelta _ hw, S.wWorm _ hw, S.wWt _ hw, S.gWt _ hg, S.order, S.phase, S.weight, T.mod, T.ph, T.call, T.polarRW,
    T.gW0 (e := d.ext) (e' := d'.ext) (gm := false) (fun h => Bool.noConfusion h) ra rb ta tb, T.wW0 (e := d.ext) (e' := d'.ext) (gm := false) (fun h => Bool.noConfusion h) rx ry tx ty]
  refine .ite Iff.rfl (fun _ => skip_sim S) fun _ => ?_
  refine metropolis_sim S S rfl ?_
  exact { S with
    order := rfl, phase := rfl, weight := rfl
    gMeas := agree_upd S.gMeas _ _
    wMeas := agree_upd S.wMeas _ _
    gWt := agree_upd S.gWt _ _
    wWt := agree_upd S.wWt _ _
    measG := rfl, gMeasure := nofun, wMeasure := fun _ => rfl }

theorem w2gCore_sim (T : TabEq P P') (hi : Inv P d) (S : Alike B ρ d d') (hm : d.measG = false) {g : ℕ} (hg : g ∈ d.G.live) (u : Q) :
    Res.Rel (OutSim B ρ) (w2gCore P d g u) (w2gCore P' d' (ρ.G g) u) := by
  have hw := hi.meas.w_mem hm
  have hv := hi.topo.gV_mem _ hg
  have hx := hi.topo.wV_mem _ hw
  obtain ⟨ra, ta⟩ := hi.dom _ (hv IN)
  obtain ⟨rb, tb⟩ := hi.dom _ (hv OUT)
  obtain ⟨rx, tx⟩ := hi.dom _ (hx IN)
  obtain ⟨ry, ty⟩ := hi.dom _ (hx OUT)
  unfold w2gCore
  simp only [S.wMeasure hm, deref_V, deref_W, deref_G, deref_live hw, deref_live hg, deref_live (hv _), deref_live (hx _), Res.ok_bind,
    S.gV _ hg, S.wV _ hw, S.r _ (hv _), S.tau _ (hv _), S.spin _ (hv _), S.r _ (hx _), S.tau _ (hx _), S.spin _ (hx _),
    S.wDelta _ hw, S.wWorm _ hw, S.wWt _ hw, S.gWt _ hg, S.order, S.phase, S.weight, T.mod, T.ph, T.call, T.polarRW,
    T.gW0 (e := d.ext) (e' := d'.ext) (gm := false) (fun h => Bool.noConfusion h) ra rb ta tb, T.wW0 (e := d.ext) (e' := d'.ext) (gm := false) (fun h => Bool.noConfusion h) rx ry tx ty]
  refine .ite Iff.rfl (fun _ => skip_sim S) fun _ => ?_
  refine metropolis_sim S S rfl ?_
  exact { S with
    order := rfl, phase := rfl, weight := rfl
    gMeas := agree_upd S.gMeas _ _
    wMeas := agree_upd S.wMeas _ _
    gWt := agree_upd S.gWt _ _
    wWt := agree_upd S.wWt _ _
    measG := rfl, wMeasure := nofun, gMeasure := fun _ => rfl }

theorem get_live {b : Bundle} (h : b.Wf) {n p : ℕ} (hp : b.get n = .ok p) : p ∈ b.live := by
  unfold Bundle.get at hp
  split_ifs at hp with h1 h2
  cases hp
  exact Bundle.slot_mem_live h (not_le.1 h1)

theorem toOrder0Core_sim (T : TabEq P P') (hi : Inv P d) (S : Alike BSim ρ d d') (u : Q) :
    Res.Rel (OutSim BSim ρ) (toOrder0Core P d u) (toOrder0Core P' d' u) := by
  unfold toOrder0Core
  refine (S.bV.get 0).bind fun v1 _ e1 hv1 => ?_
  subst hv1
  refine (S.bV.get 1).bind fun v2 _ e2 hv2 => ?_
  subst hv2
  have h1 := get_live hi.count.verWf e1
  have h2 := get_live hi.count.verWf e2
  simp only [deref_V, deref_live h1, deref_live h2, Res.ok_bind, S.r _ h1, S.r _ h2, S.tau _ h1, S.tau _ h2, S.order, S.phase, S.weight,
    T.mod, T.ph, T.call, T.probTau, T.probSite, T.normWeight, T.orderRW]
  refine .ite Iff.rfl (fun _ => skip_sim S) fun _ => ?_
  refine .same _ fun _ _ => .same _ fun _ _ => ?_
  refine metropolis_sim S S rfl ?_
  exact { S with order := rfl, phase := rfl, weight := rfl }

theorem backToOrder1Core_sim (T : TabEq P P') (hi : Inv P d) (S : Alike BSim ρ d d') {r : Site} (hr : SiteIn P r) {t1 t2 : Q}
    (h1t : TauIn P t1) (h2t : TauIn P t2) (s1 s2 : Spin) (u : Q) :
    Res.Rel (OutSim BSim ρ) (backToOrder1Core P d r t1 t2 s1 s2 u) (backToOrder1Core P' d' r t1 t2 s1 s2 u) := by
  unfold backToOrder1Core
  refine (S.bV.get 0).bind fun v1 _ e1 hv1 => ?_
  subst hv1
  refine (S.bV.get 1).bind fun v2 _ e2 hv2 => ?_
  subst hv2
  have h1 := get_live hi.count.verWf e1
  have h2 := get_live hi.count.verWf e2
  have hg1 := hi.topo.vG_mem _ h1 OUT
  have hg2 := hi.topo.vG_mem _ h2 OUT
  have hw := hi.topo.vW_mem _ h1
  simp only [deref_V, deref_G, deref_W, deref_live h1, deref_live h2, deref_live hg1, deref_live hg2, deref_live hw, Res.ok_bind,
    S.vG _ h1, S.vG _ h2, S.vW _ h1, S.vDir _ h1, S.gMeas _ hg1, S.gMeas _ hg2, S.wMeas _ hw, S.wDelta _ hw, S.order, S.phase, S.weight,
    T.mod, T.ph, T.call, T.probTau, T.probSite, T.orderRW,
    T.gW0 (e := d.ext) (e' := d'.ext) (gm := false) (fun h => Bool.noConfusion h) hr hr h1t h2t, T.gW0 (e := d.ext) (e' := d'.ext) (gm := false) (fun h => Bool.noConfusion h) hr hr h2t h1t,
    T.wW (e := d.ext) (e' := d'.ext) (gm := false) (fun h => Bool.noConfusion h) (hi.dMeas hw) hr hr h1t h2t]
  refine .same _ fun _ _ => .same _ fun _ _ => ?_
  refine metropolis_sim S S rfl ?_
  exact { S with
    order := rfl, phase := rfl, weight := rfl
    r := agree_upd (agree_upd S.r _ _) _ _
    tau := agree_upd (agree_upd S.tau _ _) _ _
    spin := agree_upd (agree_upd S.spin _ _) _ _
    gWt := agree_upd (agree_upd S.gWt _ _) _ _
    wWt := agree_upd S.wWt _ _ }

theorem toGGGammaGCore_sim (T : TabEq P P') (hi : Inv P d) (S : Alike B ρ d d') {g : ℕ} (hg : g ∈ d.G.live) {tau : Q}
    (ht : TauIn P tau) (u : Q) :
    Res.Rel (OutSim B ρ) (toGGGammaGCore P d g tau u) (toGGGammaGCore P' d' (ρ.G g) tau u) := by
  have hv := hi.topo.gV_mem _ hg
  obtain ⟨ra, ta⟩ := hi.dom _ (hv IN)
  obtain ⟨rb, tb⟩ := hi.dom _ (hv OUT)
  unfold toGGGammaGCore
  simp only [deref_V, deref_G, deref_live hg, deref_live (hv _), Res.ok_bind, S.gV _ hg, S.r _ (hv _), S.tau _ (hv _), S.spin _ (hv _),
    S.gMeas _ hg, S.gWt _ hg, S.order, S.phase, S.weight, S.measG, T.mod, T.ph, T.call, T.probTau, T.gammaRW,
    T.gW0 (e := ⟨tau, d.co.r (d.sh.gV g IN), UP⟩) (fun _ : true = true => ⟨rfl, ra, ht, rfl⟩) ra rb ta tb]
  refine .ite Iff.rfl (fun _ => skip_sim S) fun _ => ?_
  refine metropolis_sim S (by exact { S with order := rfl, phase := rfl, weight := rfl, measG := rfl, ext := fun _ => rfl }) rfl ?_
  exact { S with
    order := rfl, phase := rfl, weight := rfl
    gGam := agree_upd S.gGam _ _
    gWt := agree_upd S.gWt _ _
    measG := rfl
    hasGamma := rfl, ext := fun _ => rfl, vin := fun _ => rfl, vout := fun _ => rfl }

theorem toWWGammaWCore_sim (T : TabEq P P') (hi : Inv P d) (S : Alike B ρ d d') {w : ℕ} (hw : w ∈ d.W.live) {tau : Q}
    (ht : TauIn P tau) {r : Site} (hr : SiteIn P r) (u : Q) :
    Res.Rel (OutSim B ρ) (toWWGammaWCore P d w tau r u) (toWWGammaWCore P' d' (ρ.W w) tau r u) := by
  have hv := hi.topo.wV_mem _ hw
  obtain ⟨ra, ta⟩ := hi.dom _ (hv IN)
  obtain ⟨rb, tb⟩ := hi.dom _ (hv OUT)
  unfold toWWGammaWCore
  simp only [deref_V, deref_W, deref_live hw, deref_live (hv _), Res.ok_bind, S.wV _ hw, S.r _ (hv _), S.tau _ (hv _), S.spin _ (hv _),
    S.wMeas _ hw, S.wDelta _ hw, S.wWt _ hw, S.order, S.phase, S.weight, S.measG, T.mod, T.ph, T.call, T.probTau, T.probSite, T.gammaRW,
    T.wW0 (e := ⟨tau, r, UP⟩) (fun _ : true = true => ⟨rfl, hr, ht, rfl⟩) ra rb ta tb]
  refine .ite Iff.rfl (fun _ => skip_sim S) fun _ => ?_
  refine .ite Iff.rfl (fun _ => skip_sim S) fun _ => ?_
  refine metropolis_sim S (by exact { S with order := rfl, phase := rfl, weight := rfl, measG := rfl, ext := fun _ => rfl }) rfl ?_
  exact { S with
    order := rfl, phase := rfl, weight := rfl
    wGam := agree_upd S.wGam _ _
    wWt := agree_upd S.wWt _ _
    measG := rfl
    hasGamma := rfl, ext := fun _ => rfl, vin := fun _ => rfl, vout := fun _ => rfl }

theorem fromGGGammaGCore_sim (T : TabEq P P') (hi : Inv P d) (S : Alike B ρ d d') (h0 : d.hasGamma = 1) (u : Q) :
    Res.Rel (OutSim B ρ) (fromGGGammaGCore P d u) (fromGGGammaGCore P' d' u) := by
  have hne : d.hasGamma ≠ 0 := by omega
  obtain ⟨g, hg, hgg⟩ := hi.gamma.g_ex h0
  obtain ⟨-, e1, e2⟩ := (hi.gamma.g_flag g hg).1 hgg
  have hv := hi.topo.gV_mem _ hg
  have hl := Bundle.live_lt hg
  have hl' : ρ.G g < MAX_BUNDLE := (perm_lt ρ.fixG g).2 hl
  have hgo := hi.topo.vG_mem _ (hv IN) OUT
  have hc := hi.topo.gV_mem _ hgo IN
  obtain ⟨ra, ta⟩ := hi.dom _ (hv IN)
  obtain ⟨rb, tb⟩ := hi.dom _ (hv OUT)
  unfold fromGGGammaGCore
  rw [S.vin hne, S.vout hne, S.ext hne, e1, e2]
  simp only [Handle.act, Handle.read, if_pos hl, if_pos hl', deref_V, deref_G, deref_live (hv _), deref_live hgo, deref_live hc, Res.ok_bind,
    S.gV _ hg, S.vG _ (hv _), S.gV _ hgo, S.r _ (hv _), S.tau _ (hv _), S.spin _ hc, S.gWt _ hgo,
    S.order, S.phase, S.weight, S.measG, T.mod, T.ph, T.call, T.probTau, T.gammaRW,
    T.gW0 (e := d.ext) (e' := d.ext) (gm := false) (fun h => Bool.noConfusion h) ra rb ta tb]
  refine .ite Iff.rfl (fun _ => skip_sim S) fun _ => ?_
  refine .ite Iff.rfl (fun _ => skip_sim S) fun _ => ?_
  refine .ite Iff.rfl (fun _ => skip_sim S) fun _ => ?_
  refine metropolis_sim S S rfl ?_
  exact { S with
    order := rfl, phase := rfl, weight := rfl
    gGam := agree_upd S.gGam _ _
    gWt := agree_upd S.gWt _ _
    measG := rfl
    hasGamma := rfl, ext := fun h => absurd rfl h, vin := fun h => absurd rfl h, vout := fun h => absurd rfl h }

theorem fromWWGammaWCore_sim (T : TabEq P P') (hi : Inv P d) (S : Alike B ρ d d') (h0 : d.hasGamma = 2) (u : Q) :
    Res.Rel (OutSim B ρ) (fromWWGammaWCore P d u) (fromWWGammaWCore P' d' u) := by
  have hne : d.hasGamma ≠ 0 := by omega
  obtain ⟨w, hw, hww⟩ := hi.gamma.w_ex h0
  obtain ⟨-, e1, e2⟩ := (hi.gamma.w_flag w hw).1 hww
  have hv := hi.topo.wV_mem _ hw
  have hl := Bundle.live_lt hw
  have hl' : ρ.W w < MAX_BUNDLE := (perm_lt ρ.fixW w).2 hl
  have hwo := hi.topo.vW_mem _ (hv IN)
  obtain ⟨ra, ta⟩ := hi.dom _ (hv IN)
  obtain ⟨rb, tb⟩ := hi.dom _ (hv OUT)
  unfold fromWWGammaWCore
  rw [S.vin hne, S.vout hne, S.ext hne, e1, e2]
  simp only [Handle.act, Handle.read, if_pos hl, if_pos hl', deref_V, deref_W, deref_live (hv _), deref_live hwo, Res.ok_bind,
    S.wV _ hw, S.vW _ (hv _), S.r _ (hv _), S.tau _ (hv _), S.spin _ (hv _), S.wWt _ hwo,
    S.order, S.phase, S.weight, S.measG, T.mod, T.ph, T.call, T.probTau, T.probSite, T.gammaRW,
    T.wW0 (e := d.ext) (e' := d.ext) (gm := false) (fun h => Bool.noConfusion h) ra rb ta tb]
  refine .ite Iff.rfl (fun _ => skip_sim S) fun _ => ?_
  refine metropolis_sim S S rfl ?_
  exact { S with
    order := rfl, phase := rfl, weight := rfl
    wGam := agree_upd S.wGam _ _
    wWt := agree_upd S.wWt _ _
    measG := rfl
    hasGamma := rfl, ext := fun h => absurd rfl h, vin := fun h => absurd rfl h, vout := fun h => absurd rfl h }

end Feyn
