import Verif.Proof.Sim

/-! # Worm updates on diagrams that differ in layout only -/

set_option linter.unusedSectionVars false
set_option linter.unusedSimpArgs false

namespace Feyn
variable {Q F : Type} [Field Q] [LinearOrder Q] [IsStrictOrderedRing Q] [Field F]
variable {P P' : Params Q F} {d d' : Diag Q F} {ρ : Ren} {B : BRel}

theorem Alike.gExt (S : Alike B ρ d d') (hi : Inv P d) {g : ℕ} (hg : g ∈ d.G.live) :
    d.fl.gGam g = true → d'.ext = d.ext ∧ ExtOk P d.ext := by
  intro h
  have h1 := ((hi.gamma.g_flag g hg).1 h).1
  exact ⟨S.ext (by omega), hi.ext (by omega)⟩

theorem Alike.wExt (S : Alike B ρ d d') (hi : Inv P d) {w : ℕ} (hw : w ∈ d.W.live) :
    d.fl.wGam w = true → d'.ext = d.ext ∧ ExtOk P d.ext := by
  intro h
  have h1 := ((hi.gamma.w_flag w hw).1 h).1
  exact ⟨S.ext (by omega), hi.ext (by omega)⟩

theorem Inv.dMeas (hi : Inv P d) {w : ℕ} (hw : w ∈ d.W.live) : d.fl.wDelta w = true → d.fl.wMeas w = false :=
  fun h => (hi.delta w hw h).1

theorem createWormCore_sim (T : TabEq P P') (hi : Inv P d) (S : Alike B ρ d d') {w : ℕ} (hw : w ∈ d.W.live) (k ds : ℤ) (u : Q) :
    Res.Rel (OutSim B ρ) (createWormCore P d w k ds u) (createWormCore P' d' (ρ.W w) k ds u) := by
  have ha := hi.topo.wV_mem w hw IN
  have hb := hi.topo.wV_mem w hw OUT
  obtain ⟨ra, ta⟩ := hi.dom _ ha
  obtain ⟨rb, tb⟩ := hi.dom _ hb
  unfold createWormCore
  simp only [deref_V, deref_W, deref_live hw, deref_live ha, deref_live hb, Res.ok_bind, S.wV w hw, S.wK w hw, S.wHash,
    S.r _ ha, S.r _ hb, S.tau _ ha, S.tau _ hb, S.spin _ ha, S.spin _ hb, S.wMeas w hw, S.wDelta w hw, S.wGam w hw, S.wWt w hw,
    S.order, S.phase, S.weight, T.call, T.wormRW, T.mod, T.ph, T.wW0 (S.wExt hi hw) ra rb ta tb]
  refine .same _ fun occ _ => .ite Iff.rfl (fun _ => skip_sim S) fun _ => ?_
  refine .ite Iff.rfl (fun _ => skip_sim S) fun _ => ?_
  refine metropolis_sim S S rfl (.same _ fun wh _ => ?_)
  exact { S with
    order := rfl, phase := rfl, weight := rfl
    wK := agree_upd S.wK _ _
    wHash := rfl
    wWorm := agree_upd S.wWorm _ _
    wWt := agree_upd S.wWt _ _
    exist := rfl, ira := fun _ => rfl, masha := fun _ => rfl, k := fun _ => rfl, dSpin := fun _ => rfl, wormWt := fun _ => rfl }

theorem deleteWormCore_sim (T : TabEq P P') (hi : Inv P d) (S : Alike B ρ d d') (he : d.worm.exist = true) (u : Q) :
    Res.Rel (OutSim B ρ) (deleteWormCore P d u) (deleteWormCore P' d' u) := by
  have ha := hi.worm.ira_mem he
  have hb := hi.worm.masha_mem he
  have hw := hi.topo.vW_mem _ ha
  obtain ⟨ra, ta⟩ := hi.dom _ ha
  obtain ⟨rb, tb⟩ := hi.dom _ hb
  unfold deleteWormCore
  simp only [S.ira he, S.masha he, S.k he, S.wormWt he, deref_V, deref_W, deref_live hw, deref_live ha, deref_live hb, Res.ok_bind,
    S.vW _ ha, S.vW _ hb, S.wK _ hw, S.wHash, S.vDir _ ha, EmbeddingLike.apply_eq_iff_eq, ne_eq,
    S.r _ ha, S.r _ hb, S.tau _ ha, S.tau _ hb, S.spin _ ha, S.spin _ hb, S.wMeas _ hw, S.wDelta _ hw, S.wGam _ hw, S.wWt _ hw,
    S.order, S.phase, S.weight, T.call, T.wormRW, T.mod, T.ph, T.wW (S.wExt hi hw) (hi.dMeas hw) ra rb ta tb]
  refine .ite Iff.rfl (fun _ => skip_sim S) fun _ => ?_
  refine .same _ fun occ _ => .ite Iff.rfl (fun _ => skip_sim S) fun _ => ?_
  refine metropolis_sim S S rfl (.same _ fun wh _ => ?_)
  exact { S with
    order := rfl, phase := rfl, weight := rfl
    wK := agree_upd S.wK _ _
    wHash := rfl
    wWorm := agree_upd S.wWorm _ _
    wWt := agree_upd S.wWt _ _
    exist := rfl, ira := nofun, masha := nofun, k := nofun, dSpin := nofun, wormWt := nofun }

theorem isWorm_sim (S : Alike B ρ d d') (he : d.worm.exist = true) (v : ℕ) : d'.worm.isWorm (ρ.V v) = d.worm.isWorm v := by
  unfold Worm.isWorm
  rw [S.exist, S.ira he, S.masha he]
  have e : ∀ a b : ℕ, (ρ.V a == ρ.V b) = (a == b) := fun a b => by
    rw [Bool.eq_iff_iff, beq_iff_eq, beq_iff_eq, EmbeddingLike.apply_eq_iff_eq]
  rw [e, e]

theorem moveWormGCore_sim (T : TabEq P P') (hi : Inv P d) (S : Alike B ρ d d') (he : d.worm.exist = true) (dir : Dir) (u : Q) :
    Res.Rel (OutSim B ρ) (moveWormGCore P d dir u) (moveWormGCore P' d' dir u) := by
  have ha := hi.worm.ira_mem he
  have hb := hi.worm.masha_mem he
  have hg := hi.topo.vG_mem _ ha dir
  have hv := hi.topo.gV_mem _ hg
  have hw1 := hi.topo.vW_mem _ ha
  have hw2 := hi.topo.vW_mem _ (hv dir)
  have hx := hi.topo.wV_mem _ hw1 (!d.sh.vDir d.worm.ira)
  have hy := hi.topo.wV_mem _ hw2 (!d.sh.vDir (d.sh.gV (d.sh.vG d.worm.ira dir) dir))
  obtain ⟨ra, ta⟩ := hi.dom _ ha
  obtain ⟨rv, tv⟩ := hi.dom _ (hv dir)
  obtain ⟨rx, tx⟩ := hi.dom _ hx
  obtain ⟨ry, ty⟩ := hi.dom _ hy
  unfold moveWormGCore
  simp only [S.ira he, S.masha he, S.k he, S.wormWt he, S.dSpin he, deref_V, deref_W, deref_G, deref_live hw1, deref_live hw2, deref_live ha,
    deref_live hb, deref_live hg, deref_live (hv _), deref_live hx, deref_live hy, Res.ok_bind,
    S.vG _ ha, S.gV _ hg, S.vW _ ha, S.vW _ (hv _), S.vDir _ ha, S.vDir _ (hv _), S.wV _ hw1, S.wV _ hw2,
    S.gK _ hg, S.gHash, EmbeddingLike.apply_eq_iff_eq, isWorm_sim S he,
    S.r _ ha, S.r _ hb, S.tau _ ha, S.tau _ hb, S.spin _ ha, S.spin _ hb, S.r _ (hv _), S.tau _ (hv _), S.spin _ (hv _),
    S.r _ hx, S.tau _ hx, S.spin _ hx, S.r _ hy, S.tau _ hy, S.spin _ hy,
    S.wMeas _ hw1, S.wDelta _ hw1, S.wGam _ hw1, S.wWt _ hw1, S.wMeas _ hw2, S.wDelta _ hw2, S.wGam _ hw2, S.wWt _ hw2,
    S.gMeas _ hg, S.gGam _ hg, S.gWt _ hg, S.order, S.phase, S.weight, T.call, T.mod, T.ph,
    T.wW (S.wExt hi hw1) (hi.dMeas hw1) ra rx ta tx, T.wW (S.wExt hi hw2) (hi.dMeas hw2) rv ry tv ty,
    T.gW (S.gExt hi hg) ra rv ta tv]
  refine .ite Iff.rfl (fun _ => skip_sim S) fun _ => ?_
  refine .same _ fun occ _ => .ite Iff.rfl (fun _ => skip_sim S) fun _ => ?_
  refine metropolis_sim S S rfl (.same _ fun wh _ => ?_)
  exact { S with
    order := rfl, phase := rfl, weight := rfl
    spin := agree_upd (agree_upd S.spin _ _) _ _
    gK := agree_upd S.gK _ _
    gHash := rfl
    wWorm := agree_upd (agree_upd S.wWorm _ _) _ _
    gWt := agree_upd S.gWt _ _
    wWt := agree_upd (agree_upd S.wWt _ _) _ _
    ira := fun _ => rfl, wormWt := fun _ => rfl, dSpin := fun _ => rfl, k := fun _ => rfl, masha := fun _ => rfl }

theorem moveWormWCore_sim (T : TabEq P P') (hi : Inv P d) (S : Alike B ρ d d') (he : d.worm.exist = true) (u : Q) :
    Res.Rel (OutSim B ρ) (moveWormWCore P d u) (moveWormWCore P' d' u) := by
  have ha := hi.worm.ira_mem he
  have hb := hi.worm.masha_mem he
  have hw := hi.topo.vW_mem _ ha
  have hx := hi.topo.wV_mem _ hw (!d.sh.vDir d.worm.ira)
  obtain ⟨ra, ta⟩ := hi.dom _ ha
  obtain ⟨rx, tx⟩ := hi.dom _ hx
  unfold moveWormWCore
  simp only [S.ira he, S.masha he, S.k he, S.wormWt he, deref_V, deref_W, deref_live hw, deref_live ha, deref_live hb, deref_live hx, Res.ok_bind,
    S.vW _ ha, S.wK _ hw, S.wHash, S.vDir _ ha, S.wV _ hw, EmbeddingLike.apply_eq_iff_eq,
    S.r _ ha, S.r _ hb, S.tau _ ha, S.tau _ hb, S.spin _ ha, S.r _ hx, S.tau _ hx, S.spin _ hx, S.wMeas _ hw, S.wDelta _ hw, S.wGam _ hw,
    S.wWorm _ hw, S.wWt _ hw, S.order, S.phase, S.weight, T.mod, T.ph, T.wW (S.wExt hi hw) (hi.dMeas hw) ra rx ta tx]
  refine .ite Iff.rfl (fun _ => skip_sim S) fun _ => ?_
  refine .same _ fun occ _ => .ite Iff.rfl (fun _ => skip_sim S) fun _ => ?_
  refine metropolis_sim S S rfl (.same _ fun wh _ => ?_)
  exact { S with
    order := rfl, phase := rfl, weight := rfl
    wK := agree_upd S.wK _ _
    wHash := rfl
    wWt := agree_upd S.wWt _ _
    ira := fun _ => rfl, wormWt := fun _ => rfl, k := fun _ => rfl, masha := fun _ => rfl }

theorem reconnectCore_sim (T : TabEq P P') (hi : Inv P d) (S : Alike B ρ d d') (he : d.worm.exist = true) (dir : Dir) (u : Q) :
    Res.Rel (OutSim B ρ) (reconnectCore P d dir u) (reconnectCore P' d' dir u) := by
  have ha := hi.worm.ira_mem he
  have hb := hi.worm.masha_mem he
  have hg := hi.topo.vG_mem _ ha dir
  have hg' := hi.topo.vG_mem _ hb dir
  have hv := hi.topo.gV_mem _ hg
  have hv' := hi.topo.gV_mem _ hg'
  obtain ⟨ra, ta⟩ := hi.dom _ ha
  obtain ⟨rb, tb⟩ := hi.dom _ hb
  obtain ⟨rv, tv⟩ := hi.dom _ (hv dir)
  obtain ⟨rv', tv'⟩ := hi.dom _ (hv' dir)
  unfold reconnectCore
  simp only [S.ira he, S.masha he, S.k he, deref_V, deref_G, deref_live ha, deref_live hb, deref_live hg, deref_live hg', deref_live (hv _),
    deref_live (hv' _), Res.ok_bind, S.vG _ ha, S.vG _ hb, S.gV _ hg, S.gV _ hg', S.spin _ (hv _), S.spin _ (hv' _), S.gK _ hg, S.gK _ hg',
    S.r _ ha, S.r _ hb, S.tau _ ha, S.tau _ hb, S.spin _ ha, S.spin _ hb, S.r _ (hv _), S.tau _ (hv _), S.r _ (hv' _), S.tau _ (hv' _),
    S.gMeas _ hg, S.gGam _ hg, S.gWt _ hg, S.gMeas _ hg', S.gGam _ hg', S.gWt _ hg', S.order, S.phase, S.weight, S.sfl, T.mod, T.ph,
    T.gW (S.gExt hi hg) rb rv tb tv, T.gW (S.gExt hi hg') ra rv' ta tv']
  refine .ite Iff.rfl (fun _ => skip_sim S) fun _ => ?_
  refine metropolis_sim S S rfl ?_
  exact { S with
    order := rfl, phase := rfl, weight := rfl, sfl := rfl
    vG := agree_upd2 (agree_upd2 S.vG _ _ _) _ _ _
    gV := agree_upd2 (agree_upd2 S.gV _ _ _) _ _ _
    gWt := agree_upd (agree_upd S.gWt _ _) _ _
    ira := fun _ => rfl, masha := fun _ => rfl, k := fun _ => rfl }

end Feyn
