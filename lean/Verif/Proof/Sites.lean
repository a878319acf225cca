import Verif.Proof.Extra
import Verif.Proof.RLoop

/-! Both ends of a fermion line stay on the same site. -/

namespace Feyn

set_option linter.unusedSectionVars false
set_option linter.unusedSimpArgs false

section
variable {Q F : Type} [Field Q] [LinearOrder Q] [Field F]

attribute [local irreducible] metropolis

/-- Fields on which `SiteGOk` depends. -/
def SameSites (d d' : Diag Q F) : Prop := d'.G = d.G ∧ d'.sh.gV = d.sh.gV ∧ d'.co.r = d.co.r

theorem SameSites.keep {d d' : Diag Q F} (h : SameSites d d') (hd : SiteGOk d) : SiteGOk d' := by
  obtain ⟨h1, h2, h3⟩ := h
  unfold SiteGOk
  rw [h1, h2, h3]
  exact hd

theorem runOp_sites (P : Params Q F) (op : Op) (o : Words) (d : Diag Q F)
    (h : op ∉ [.reconnect, .addInteraction, .delInteraction, .addDelta, .delDelta, .changeRLoop, .backToOrder1]) :
    (runOp P op o d).All (Acc (SameSites d)) := by
  cases op <;> simp at h <;> unfold runOp <;> dsimp only
  case createWorm => unfold createWorm createWormCore; peelA; exact ⟨rfl, rfl, rfl⟩
  case deleteWorm => unfold deleteWorm deleteWormCore; peelA; exact ⟨rfl, rfl, rfl⟩
  case moveWormG => unfold moveWormG moveWormGCore; peelA; exact ⟨rfl, rfl, rfl⟩
  case moveWormW => unfold moveWormW moveWormWCore; peelA; exact ⟨rfl, rfl, rfl⟩
  case changeTau => unfold changeTau changeTauCore; peelA; all_goals exact ⟨rfl, rfl, rfl⟩
  case g2w => unfold g2w g2wCore; peelA; exact ⟨rfl, rfl, rfl⟩
  case w2g => unfold w2g w2gCore; peelA; exact ⟨rfl, rfl, rfl⟩
  case delta2cont => unfold delta2cont delta2contCore deltaCore; peelA; all_goals exact ⟨rfl, rfl, rfl⟩
  case cont2delta => unfold cont2delta cont2deltaCore deltaCore; peelA; all_goals exact ⟨rfl, rfl, rfl⟩
  case toOrder0 => unfold toOrder0 toOrder0Core; peelA; exact ⟨rfl, rfl, rfl⟩
  case toGGGammaG => unfold toGGGammaG toGGGammaGCore; peelA; exact ⟨rfl, rfl, rfl⟩
  case fromGGGammaG => unfold fromGGGammaG fromGGGammaGCore; peelA; exact ⟨rfl, rfl, rfl⟩
  case toWWGammaW => unfold toWWGammaW toWWGammaWCore; peelA; exact ⟨rfl, rfl, rfl⟩
  case fromWWGammaW => unfold fromWWGammaW fromWWGammaWCore; peelA; exact ⟨rfl, rfl, rfl⟩
  all_goals exact acc_skip

end

section
variable {Q F : Type} [Field Q] [LinearOrder Q] [IsStrictOrderedRing Q] [Field F]
variable {P : Params Q F} {d : Diag Q F}

attribute [local irreducible] metropolis

theorem SiteF.reconn {G : Finset ℕ} {gV : ℕ → Dir → ℕ} {r : ℕ → Site} (h : SiteF G gV r) {dir : Dir}
    {i m gI gM : ℕ} (hI : gI ∈ G) (hM : gM ∈ G) (hne : gI ≠ gM) (eI : gV gI (!dir) = i) (eM : gV gM (!dir) = m)
    (hr : r i = r m) : SiteF G (upd2 (upd2 gV gI (!dir) m) gM (!dir) i) r := by
  have key : ∀ g ∈ G, r (upd2 (upd2 gV gI (!dir) m) gM (!dir) i g dir) = r (upd2 (upd2 gV gI (!dir) m) gM (!dir) i g (!dir)) := by
    intro g hg
    have h0 := h g hg dir
    by_cases c1 : g = gM
    · subst c1
      simp [upd2_apply, Ne.symm hne, h0, eM, hr]
    · by_cases c2 : g = gI
      · subst c2
        simp [upd2_apply, c1, h0, eI, hr]
      · simp [upd2_apply, c1, c2, h0]
  intro g hg e
  by_cases c : e = dir
  · rw [c]; exact key g hg
  · have : e = !dir := by cases e <;> cases dir <;> simp_all
    rw [this, Bool.not_not]; exact (key g hg).symm

theorem reconnect_siteG (h : Inv P d) (hs : SiteGOk d) (o : Words) : (reconnect P o d).All (Acc SiteGOk) := by
  unfold reconnect
  refine Res.all_ite (fun _ => acc_skip) (fun c => ?_)
  simp only [not_or, Bool.not_eq_false] at c
  refine Res.all_bind fun _ _ => ?_
  refine Res.all_bind fun _ _ => ?_
  refine Res.all_ite (fun _ => acc_skip) (fun c3 => ?_)
  refine Res.all_bind fun dir _ => ?_
  have hi := h.worm.ira_mem c.2
  have hm := h.worm.masha_mem c.2
  have hne : d.sh.vG d.worm.ira dir ≠ d.sh.vG d.worm.masha dir := fun q => by
    have h1 := h.topo.gV_vG _ hi dir
    rw [q, h.topo.gV_vG _ hm dir] at h1
    exact h.worm.ne c.2 h1.symm
  unfold reconnectCore
  peelA
  exact hs.reconn (h.topo.vG_mem _ hi dir) (h.topo.vG_mem _ hm dir) hne (h.topo.gV_vG _ hi dir) (h.topo.gV_vG _ hm dir)
    (not_not.1 c3)

theorem SiteF.insert {V G G' : Finset ℕ} {gV : ℕ → Dir → ℕ} {r : ℕ → Site} (h : SiteF G gV r) {dir : Dir}
    {i m gC gD vA vB gA gB : ℕ} (hV : ∀ g ∈ G, ∀ e, gV g e ∈ V) (hA : vA ∉ V) (hB : vB ∉ V) (hAB : vA ≠ vB)
    (hC : gC ∈ G) (hD : gD ∈ G) (hCD : gC ≠ gD) (eC : gV gC (!dir) = i) (eD : gV gD (!dir) = m)
    (hgA : gA ∉ G) (hgB : gB ∉ G) (hgAB : gA ≠ gB) (hG : G' = Insert.insert gB (Insert.insert gA G)) :
    SiteF G' (upd2 (upd2 (upd2 (upd2 (upd2 (upd2 gV gA (!dir) i) gA dir vA) gB (!dir) m) gB dir vB) gC (!dir) vA)
      gD (!dir) vB) (upd (upd r vA (r (gV gC dir))) vB (r (gV gD dir))) := by
  have nA : ∀ g ∈ G, g ≠ gA := fun g hg q => hgA (q ▸ hg)
  have nB : ∀ g ∈ G, g ≠ gB := fun g hg q => hgB (q ▸ hg)
  have wA : ∀ g ∈ G, ∀ e, gV g e ≠ vA := fun g hg e q => hA (q ▸ hV g hg e)
  have wB : ∀ g ∈ G, ∀ e, gV g e ≠ vB := fun g hg e q => hB (q ▸ hV g hg e)
  have iA := eC ▸ wA gC hC (!dir)
  have iB := eC ▸ wB gC hC (!dir)
  have mA := eD ▸ wA gD hD (!dir)
  have mB := eD ▸ wB gD hD (!dir)
  have rC := eC ▸ h gC hC dir
  have rD := eD ▸ h gD hD dir
  have key : ∀ g ∈ G', ∀ gV' : ℕ → Dir → ℕ, gV' = upd2 (upd2 (upd2 (upd2 (upd2 (upd2 gV gA (!dir) i) gA dir vA) gB (!dir) m) gB dir vB) gC (!dir) vA)
      gD (!dir) vB → ∀ r', r' = upd (upd r vA (r (gV gC dir))) vB (r (gV gD dir)) → r' (gV' g dir) = r' (gV' g (!dir)) := by
    rintro g hg gV' rfl r' rfl
    rw [hG, Finset.mem_insert, Finset.mem_insert] at hg
    rcases hg with rfl | rfl | hg
    · simp [upd2_apply, upd_apply, (nB gC hC).symm, (nB gD hD).symm, mA, mB, rD]
    · simp [upd2_apply, upd_apply, (nA gC hC).symm, (nA gD hD).symm, hgAB, iA, iB, rC, hAB]
    · have n1 := nA g hg
      have n2 := nB g hg
      by_cases c1 : g = gD
      · subst c1
        simp [upd2_apply, upd_apply, n1, n2, Ne.symm hCD, wA _ hD, wB _ hD]
      · by_cases c2 : g = gC
        · subst c2
          simp [upd2_apply, upd_apply, n1, n2, hCD, wA _ hC, wB _ hC, hAB]
        · simp [upd2_apply, upd_apply, n1, n2, c1, c2, wA _ hg, wB _ hg, h g hg dir]
  intro g hg e
  by_cases c : e = dir
  · rw [c]; exact key g hg _ rfl _ rfl
  · have : e = !dir := by cases e <;> cases dir <;> simp_all
    rw [this, Bool.not_not]; exact (key g hg _ rfl _ rfl).symm

theorem addCore_siteG (hP : P.Wf) (h : Inv P d) (hs : SiteGOk d) (ho : d.order ≠ 0) (hm : d.order < P.maxOrd)
    (he : d.worm.exist = true) {isDelta : Bool} {kW : ℤ} {dir dirW : Dir} {tauA tauB u : Q} :
    (addCore P d isDelta kW dir dirW tauA tauB u).All (Acc SiteGOk) := by
  have hN : d.order = d.W.avail := by have := h.count.order; omega
  have hM := hP.lt_max
  unfold addCore
  peelA
  rename_i x1 hA x2 hB x3 hGA x4 hGB x5 hW _ _ _ _ _ _
  obtain ⟨vA, ver1⟩ := x1
  obtain ⟨vB, ver2⟩ := x2
  obtain ⟨gA, g1⟩ := x3
  obtain ⟨gB, g2⟩ := x4
  obtain ⟨w, w1⟩ := x5
  dsimp only at hA hB hGA hGB ⊢
  have hv := h.count.ver
  have hg := h.count.g
  obtain ⟨a1, a2, a3, a4⟩ := add_live h.count.verWf hA (by omega)
  obtain ⟨b1, b2, b3, b4⟩ := add_live a1 hB (by omega)
  obtain ⟨c1, c2, c3, c4⟩ := add_live h.count.gWf hGA (by omega)
  obtain ⟨e1, e2, e3, e4⟩ := add_live c1 hGB (by omega)
  have hAB : vA ≠ vB := fun q => b2 (by rw [a3, q]; exact Finset.mem_insert_self _ _)
  have hBV : vB ∉ d.Ver.live := fun q => b2 (by rw [a3]; exact Finset.mem_insert_of_mem q)
  have hgAB : gA ≠ gB := fun q => e2 (by rw [c3, q]; exact Finset.mem_insert_self _ _)
  have hgB : gB ∉ d.G.live := fun q => e2 (by rw [c3]; exact Finset.mem_insert_of_mem q)
  have hi := h.worm.ira_mem he
  have hm := h.worm.masha_mem he
  have hne : d.sh.vG d.worm.ira dir ≠ d.sh.vG d.worm.masha dir := fun q => by
    have h1 := h.topo.gV_vG _ hi dir
    rw [q, h.topo.gV_vG _ hm dir] at h1
    exact h.worm.ne he h1.symm
  exact SiteF.insert hs h.topo.gV_mem a2 hBV hAB (h.topo.vG_mem _ hi dir) (h.topo.vG_mem _ hm dir) hne
    (h.topo.gV_vG _ hi dir) (h.topo.gV_vG _ hm dir) c2 hgB hgAB (by rw [e3, c3])

theorem SiteF.erase {G G' : Finset ℕ} {gV : ℕ → Dir → ℕ} {r : ℕ → Site} (h : SiteF G gV r) {dir : Dir}
    {i m gA gB gC gD : ℕ} (hA : gA ∈ G) (hB : gB ∈ G) (hC : gC ∈ G) (hD : gD ∈ G)
    (eA : gV gA (!dir) = i) (eB : gV gB (!dir) = m)
    (eC : gV gC (!dir) = gV gA dir) (eD : gV gD (!dir) = gV gB dir) (hCD : gC ≠ gD) (hG : ∀ g ∈ G', g ∈ G) :
    SiteF G' (upd2 (upd2 gV gC (!dir) i) gD (!dir) m) r := by
  have key : ∀ g ∈ G', ∀ gV' : ℕ → Dir → ℕ, gV' = upd2 (upd2 gV gC (!dir) i) gD (!dir) m →
      r (gV' g dir) = r (gV' g (!dir)) := by
    rintro g hg gV' rfl
    have h0 := h g (hG g hg) dir
    have hA' := h gA hA dir
    have hB' := h gB hB dir
    by_cases c1 : g = gD
    · subst c1
      simp [upd2_apply, Ne.symm hCD, h0, eD, hB', eB]
    · by_cases c2 : g = gC
      · subst c2
        simp [upd2_apply, c1, h0, eC, hA', eA]
      · simp [upd2_apply, c1, c2, h0]
  intro g hg e
  by_cases c : e = dir
  · rw [c]; exact key g hg _ rfl
  · have : e = !dir := by cases e <;> cases dir <;> simp_all
    rw [this, Bool.not_not]; exact (key g hg _ rfl).symm

theorem delCore_siteG (h : Inv P d) (hs : SiteGOk d) (he : d.worm.exist = true) {isDelta : Bool} {dir : Dir} {u : Q} :
    (delCore P d isDelta dir u).All (Acc SiteGOk) := by
  have hi := h.worm.ira_mem he
  have hm := h.worm.masha_mem he
  have mA : d.sh.vG d.worm.ira dir ∈ d.G.live := h.topo.vG_mem _ hi _
  have mB : d.sh.vG d.worm.masha dir ∈ d.G.live := h.topo.vG_mem _ hm _
  have vA := h.topo.gV_mem _ mA dir
  have vB := h.topo.gV_mem _ mB dir
  have hAB : d.sh.vG d.worm.ira dir ≠ d.sh.vG d.worm.masha dir := fun q => by
    have h1 := h.topo.gV_vG _ hi dir
    rw [q, h.topo.gV_vG _ hm dir] at h1
    exact h.worm.ne he h1.symm
  have hvAB : d.sh.gV (d.sh.vG d.worm.ira dir) dir ≠ d.sh.gV (d.sh.vG d.worm.masha dir) dir := fun q => by
    have h1 := h.topo.vG_gV _ mA dir
    rw [q, h.topo.vG_gV _ mB dir] at h1
    exact hAB h1.symm
  have hCD : d.sh.vG (d.sh.gV (d.sh.vG d.worm.ira dir) dir) dir ≠ d.sh.vG (d.sh.gV (d.sh.vG d.worm.masha dir) dir) dir :=
    fun q => by
      have h1 := h.topo.gV_vG _ vA dir
      rw [q, h.topo.gV_vG _ vB dir] at h1
      exact hvAB h1.symm
  unfold delCore
  peelA
  rename_i x1 hG1 _ _ x2 hG2 _ _ _ _
  obtain ⟨r1, r2, -⟩ := remove_live h.count.gWf mA hG1
  obtain ⟨-, s2, -⟩ := remove_live r1 (by rw [r2]; exact Finset.mem_erase.2 ⟨hAB.symm, mB⟩) hG2
  exact SiteF.erase hs mA mB (h.topo.vG_mem _ vA dir) (h.topo.vG_mem _ vB dir) (h.topo.gV_vG _ hi dir)
    (h.topo.gV_vG _ hm dir) (h.topo.gV_vG _ vA dir) (h.topo.gV_vG _ vB dir) hCD
    (fun g hg => by rw [s2, r2] at hg; exact Finset.mem_of_mem_erase (Finset.mem_of_mem_erase hg))

theorem SiteGOk.next (h : Inv P d) (hs : SiteGOk d) {v : ℕ} (hv : v ∈ d.Ver.live) :
    d.co.r (nextVertex d.sh v) = d.co.r v := by
  have := hs _ (h.topo.vG_mem v hv OUT) OUT
  rw [h.topo.gV_vG v hv OUT] at this
  exact this

/-- All vertices of a fermion loop are on the same site. -/
theorem SiteGOk.loop (h : Inv P d) (hs : SiteGOk d) {v : ℕ} (hv : v ∈ d.Ver.live) (k : ℕ) :
    (nextVertex d.sh)^[k] v ∈ d.Ver.live ∧ d.co.r ((nextVertex d.sh)^[k] v) = d.co.r v := by
  induction k with
  | zero => exact ⟨hv, rfl⟩
  | succ k ih =>
    rw [Function.iterate_succ_apply']
    exact ⟨h.topo.gV_mem _ (h.topo.vG_mem _ ih.1 OUT) OUT, (hs.next h ih.1).trans ih.2⟩

theorem movedDiag_siteG (h : Inv P d) (hs : SiteGOk d) {oldR newR : Site} {v0 : ℕ} {vs : List ℕ} {fw : ℕ → ℕ}
    (hr : WalkRes d oldR v0 vs fw) {ratio : F} : SiteGOk (movedDiag P d vs newR ratio) := by
  have key : ∀ g ∈ d.G.live, (if d.sh.gV g IN ∈ vs then newR else d.co.r (d.sh.gV g IN)) =
      (if d.sh.gV g OUT ∈ vs then newR else d.co.r (d.sh.gV g OUT)) := by
    intro g hg
    have h0 : d.co.r (d.sh.gV g IN) = d.co.r (d.sh.gV g OUT) := hs g hg IN
    have hin := h.topo.gV_mem g hg IN
    have hnx : nextVertex d.sh (d.sh.gV g IN) = d.sh.gV g OUT := by
      unfold nextVertex
      rw [show d.sh.vG (d.sh.gV g IN) OUT = g from h.topo.vG_gV g hg IN]
    have hiff : d.sh.gV g IN ∈ vs ↔ d.sh.gV g OUT ∈ vs := by
      rw [← hnx]
      refine ⟨hr.step _, fun q => ?_⟩
      exact closed_prev h.topo hr.mem hr.step hin q
    by_cases c : d.sh.gV g IN ∈ vs
    · rw [if_pos c, if_pos (hiff.1 c)]
    · rw [if_neg c, if_neg (fun q => c (hiff.2 q)), h0]
  intro g hg e
  cases e
  · exact key g hg
  · exact (key g hg).symm

theorem changeRLoop_siteG (hP : P.Wf) (h : Inv P d) (hs : SiteGOk d) (o : Words) :
    (changeRLoop P o d).All (Acc SiteGOk) := by
  by_cases c : d.order = 0 ∨ d.worm.exist = true
  · unfold changeRLoop; rw [if_pos c]; exact acc_skip
  · obtain ⟨v0, res, newR, -, -, -, -, hn, hsm⟩ := changeRLoop_spec hP h o c
    cases res with
    | none => rw [(hn rfl).2]; exact acc_skip
    | some p =>
      obtain ⟨hr, e⟩ := hsm p.1 p.2 rfl
      rw [e]
      peelA
      exact movedDiag_siteG h hs hr

theorem backToOrder1Core_siteG (h : Inv P d) (ho : d.order = 0) {r : Site} {t1 t2 : Q} {s1 s2 : Spin} {u : Q} :
    (backToOrder1Core P d r t1 t2 s1 s2 u).All (Acc SiteGOk) := by
  have hc := h.count.order
  have hpos := h.count.n_pos
  have hn : d.W.avail = 1 := by omega
  obtain ⟨hv1, hv2, hne, hV, g1, g2⟩ := h.pair hn
  unfold backToOrder1Core
  rw [g1, g2]
  simp only [Res.ok_bind]
  peelA
  intro g hg e
  have m : ∀ e, d.sh.gV g e = d.Ver.slot 0 ∨ d.sh.gV g e = d.Ver.slot 1 := fun e => by
    have := h.topo.gV_mem g hg e
    rw [hV] at this
    simpa using this
  have al : ∀ e, upd (upd d.co.r (d.Ver.slot 0) r) (d.Ver.slot 1) r (d.sh.gV g e) = r := fun e => by
    rcases m e with q | q <;> simp [q, upd_apply]
  exact (al e).trans (al (!e)).symm

theorem runOp_siteG (hP : P.Wf) (h : Inv P d) (hs : SiteGOk d) (op : Op) (o : Words) :
    (runOp P op o d).All (Acc SiteGOk) := by
  by_cases hop : op ∉ [.reconnect, .addInteraction, .delInteraction, .addDelta, .delDelta, .changeRLoop, .backToOrder1]
  · exact acc_mono (runOp_sites P op o d hop) fun _ a => a.keep hs
  cases op <;> simp at hop <;> unfold runOp <;> dsimp only
  case reconnect => exact reconnect_siteG h hs o
  case addInteraction =>
    unfold addInteraction
    refine Res.all_ite (fun _ => acc_skip) (fun c => ?_)
    simp only [Bool.not_eq_false] at c
    refine Res.all_ite (fun _ => acc_skip) (fun c2 => ?_)
    simp only [not_or, not_le] at c2
    refine Res.all_bind fun _ _ => ?_
    refine Res.all_bind fun _ _ => ?_
    refine Res.all_bind fun _ _ => ?_
    exact addCore_siteG hP h hs c2.1 (by omega) c
  case delInteraction =>
    unfold delInteraction
    refine Res.all_ite (fun _ => acc_skip) (fun c => ?_)
    simp only [Bool.not_eq_false] at c
    refine Res.all_ite (fun _ => acc_skip) (fun _ => ?_)
    refine Res.all_bind fun _ _ => ?_
    exact delCore_siteG h hs c
  case addDelta =>
    unfold addDelta
    refine Res.all_ite (fun _ => acc_skip) (fun c => ?_)
    simp only [Bool.not_eq_false] at c
    refine Res.all_ite (fun _ => acc_skip) (fun c2 => ?_)
    simp only [not_or, not_le] at c2
    refine Res.all_bind fun _ _ => ?_
    refine Res.all_bind fun _ _ => ?_
    refine Res.all_bind fun _ _ => ?_
    exact addCore_siteG hP h hs c2.1 (by omega) c
  case delDelta =>
    unfold delDelta
    refine Res.all_ite (fun _ => acc_skip) (fun c => ?_)
    simp only [Bool.not_eq_false] at c
    refine Res.all_ite (fun _ => acc_skip) (fun _ => ?_)
    refine Res.all_bind fun _ _ => ?_
    exact delCore_siteG h hs c
  case changeRLoop => exact changeRLoop_siteG hP h hs o
  case backToOrder1 =>
    unfold backToOrder1
    refine Res.all_ite (fun _ => acc_skip) (fun _ => ?_)
    refine Res.all_ite (fun _ => acc_skip) (fun c => ?_)
    simp only [not_or, not_not] at c
    refine Res.all_bind fun _ _ => ?_
    refine Res.all_bind fun _ _ => ?_
    refine Res.all_bind fun _ _ => ?_
    exact backToOrder1Core_siteG h c.2

theorem Untouched.siteG {d d' : Diag Q F} (h : Untouched d d') : SameSites d d' := by
  rcases h with rfl | ⟨-, e, rfl⟩ <;> exact ⟨rfl, rfl, rfl⟩

/-- A property of diagrams kept by accepted operations, by unaccepted ones, by `FixDiagram` and by restarts holds in all reachable
states. -/
theorem Reach.induct {P₀ : Params Q F} (hP : P₀.Wf) (hS : StartOk P₀) (p : Diag Q F → Prop)
    (h0 : ∀ d, Started P₀ d → p d)
    (h1 : ∀ P d op o, P.Wf → Inv P d → p d → (runOp P op o d).All (Acc p))
    (h2 : ∀ d d', Untouched d d' → p d → p d')
    (h3 : ∀ P d, p d → p (fixed P d))
    (h4 : ∀ P d d', Inv P d → Relabeled d d' → p d → p d')
    (h5 : ∀ d, p d → p (dropWorm d)) {c : Chain Q F} (h : Reach P₀ c) : p c.d := by
  induction h with
  | start d₀ d hf e =>
    obtain ⟨d', e', hs⟩ := buildNew_started (P := P₀) hf
    rw [e] at e'; cases e'
    exact h0 _ hs
  | hop c c' o hr e ih =>
    obtain ⟨hw, hi⟩ := hr.inv hP hS
    unfold hopOne at e
    cases hs : selectOp c.P (urn Q (o 0)) with
    | none =>
      rw [hs] at e
      cases e
      exact ih
    | some op =>
      obtain ⟨out, eo, -⟩ := runOp_good hw hi op (fun i => o (i + 1))
      have he := runOp_effect c.P op (fun i => o (i + 1)) c.d out eo
      have hk := h1 _ _ op (fun i => o (i + 1)) hw hi ih out eo
      rw [hs] at e
      simp only [eo, Res.ok_bind] at e
      cases e
      by_cases ht : out.tag = .accept
      · exact hk ht
      · exact h2 _ _ (he.1 ht) ih
  | reweight c P' _ _ ih => exact ih
  | anneal c P' d' hr _ _ e _ ih =>
    obtain rfl := fixDiagram_fixed (hr.inv hP hS).2 e
    exact h3 _ _ ih
  | restart c P' dict d₀ d' n hr ha hγ es h0' el hn ih =>
    obtain ⟨hR, hf, -⟩ := restart_spec (hr.inv hP hS).2 ha hγ h0' es el hn
    exact h4 _ _ _ hf hR (h3 _ _ (h5 _ ih))

theorem Reach.siteG {P₀ : Params Q F} (hP : P₀.Wf) (hS : StartOk P₀) {c : Chain Q F} (h : Reach P₀ c) :
    SiteGOk c.d := by
  refine Reach.induct hP hS SiteGOk ?_ (fun P d op o hw hi hs => runOp_siteG hw hi hs op o)
    (fun d d' hu => hu.siteG.keep) (fun P d hd => hd) (fun P d d' hi hR => hR.siteG hi) (fun d hd => hd) h
  intro d hs g hg e
  rw [hs.g, Bundle.ofSize_live (by omega), Finset.mem_range] at hg
  have hr : ∀ e, d.co.r (d.sh.gV g e) = startSite := fun e => by
    refine hs.r _ ?_
    rw [hs.gV g hg]
    split <;> omega
  rw [hr, hr]

end
end Feyn
