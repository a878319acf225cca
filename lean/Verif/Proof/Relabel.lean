import Verif.Spec.IO
import Verif.Proof.Fix
import Verif.Proof.Start

/-!
# Diagrams that differ in the memory cells of their components only
-/

namespace Feyn

set_option linter.unusedSectionVars false

section
variable {Q F : Type} [Field Q] [LinearOrder Q] [Field F]

/-- `d'` is `d` with every component moved to the cell that is its name. -/
structure Relabeled (d d' : Diag Q F) : Prop where
  ver : d'.Ver = Bundle.ofSize d.Ver.avail
  g : d'.G = Bundle.ofSize d.G.avail
  w : d'.W = Bundle.ofSize d.W.avail
  order : d'.order = d.order
  sfl : d'.sfl = d.sfl
  weight : d'.weight = d.weight
  phase : d'.phase = d.phase
  hasGamma : d'.hasGamma = d.hasGamma
  gHash : d'.mo.gHash = d.mo.gHash
  wHash : d'.mo.wHash = d.mo.wHash
  r : ∀ v < d.Ver.avail, d'.co.r v = d.co.r (d.Ver.slot v)
  tau : ∀ v < d.Ver.avail, d'.co.tau v = d.co.tau (d.Ver.slot v)
  spin : ∀ v < d.Ver.avail, d'.co.spin v = d.co.spin (d.Ver.slot v)
  vDir : ∀ v < d.Ver.avail, d'.sh.vDir v = d.sh.vDir (d.Ver.slot v)
  vW : ∀ v < d.Ver.avail, d'.sh.vW v = d.W.name (d.sh.vW (d.Ver.slot v))
  vG : ∀ v < d.Ver.avail, ∀ e, d'.sh.vG v e = d.G.name (d.sh.vG (d.Ver.slot v) e)
  gV : ∀ g < d.G.avail, ∀ e, d'.sh.gV g e = d.Ver.name (d.sh.gV (d.G.slot g) e)
  gK : ∀ g < d.G.avail, d'.mo.gK g = d.mo.gK (d.G.slot g)
  gMeas : ∀ g < d.G.avail, d'.fl.gMeas g = d.fl.gMeas (d.G.slot g)
  gGam : ∀ g < d.G.avail, d'.fl.gGam g = d.fl.gGam (d.G.slot g)
  gWt : ∀ g < d.G.avail, d'.wt.gWt g = d.wt.gWt (d.G.slot g)
  wV : ∀ w < d.W.avail, ∀ e, d'.sh.wV w e = d.Ver.name (d.sh.wV (d.W.slot w) e)
  wK : ∀ w < d.W.avail, d'.mo.wK w = d.mo.wK (d.W.slot w)
  wMeas : ∀ w < d.W.avail, d'.fl.wMeas w = d.fl.wMeas (d.W.slot w)
  wGam : ∀ w < d.W.avail, d'.fl.wGam w = d.fl.wGam (d.W.slot w)
  wDelta : ∀ w < d.W.avail, d'.fl.wDelta w = d.fl.wDelta (d.W.slot w)
  wWorm : ∀ w < d.W.avail, d'.fl.wWorm w = d.fl.wWorm (d.W.slot w)
  wWt : ∀ w < d.W.avail, d'.wt.wWt w = d.wt.wWt (d.W.slot w)
  exist : d'.worm.exist = d.worm.exist
  ira : d.worm.exist = true → d'.worm.ira = d.Ver.name d.worm.ira
  masha : d.worm.exist = true → d'.worm.masha = d.Ver.name d.worm.masha
  wk : d.worm.exist = true → d'.worm.k = d.worm.k
  dSpin : d.worm.exist = true → d'.worm.dSpin = d.worm.dSpin
  wwt : d.worm.exist = true → d'.worm.wt = d.worm.wt
  measG : d'.measG = d.measG
  gMeasure : d.measG = true → d'.gMeasure = d.G.name d.gMeasure
  wMeasure : d.measG = false → d'.wMeasure = d.W.name d.wMeasure

omit [Field Q] [LinearOrder Q] [Field F] in
theorem Bundle.ofSize_get {n i p : ℕ} (h : (Bundle.ofSize n).get i = .ok p) : p = i ∧ i < n := by
  unfold Bundle.get Bundle.ofSize at h
  dsimp only at h
  split_ifs at h with c1 c2
  cases h
  exact ⟨rfl, by omega⟩

theorem Bundle.get_ok {b : Bundle} {i p : ℕ} (h : b.get i = .ok p) : i < b.avail ∧ b.slot i = p := by
  unfold Bundle.get at h
  split_ifs at h with c1 c2
  cases h
  exact ⟨by omega, rfl⟩

theorem Relabeled.same {d d' : Diag Q F} (h : Relabeled d d') : SameDiagram d d' where
  nVer := by rw [h.ver]; rfl
  nG := by rw [h.g]; rfl
  nW := by rw [h.w]; rfl
  order := h.order
  sfl := h.sfl
  weight := h.weight
  phase := h.phase
  hasGamma := h.hasGamma
  gHash := h.gHash
  wHash := h.wHash
  ver := by
    intro i v v' e e'
    obtain ⟨hi, rfl⟩ := Bundle.get_ok e
    rw [h.ver] at e'
    obtain ⟨rfl, -⟩ := Bundle.ofSize_get e'
    rw [h.r _ hi, h.tau _ hi, h.spin _ hi, h.vDir _ hi, h.vW _ hi, h.w, h.g]
    exact ⟨rfl, rfl, fun _ => rfl, rfl, rfl, fun e => h.vG _ hi e⟩
  g := by
    intro i v v' e e'
    obtain ⟨hi, rfl⟩ := Bundle.get_ok e
    rw [h.g] at e'
    obtain ⟨rfl, -⟩ := Bundle.ofSize_get e'
    rw [h.ver]
    exact ⟨fun e => h.gV _ hi e, h.gK _ hi, h.gMeas _ hi, h.gGam _ hi, h.gWt _ hi⟩
  w := by
    intro i v v' e e'
    obtain ⟨hi, rfl⟩ := Bundle.get_ok e
    rw [h.w] at e'
    obtain ⟨rfl, -⟩ := Bundle.ofSize_get e'
    rw [h.ver]
    exact ⟨fun e => h.wV _ hi e, h.wK _ hi, h.wMeas _ hi, h.wGam _ hi, h.wDelta _ hi, h.wWorm _ hi, h.wWt _ hi⟩
  exist := h.exist
  worm := by
    intro q
    rw [h.ver]
    exact ⟨h.ira q, h.masha q, h.wk q, h.dSpin q, h.wwt q⟩
  measG := h.measG
  gMeasure := by
    intro q; rw [h.g]; exact h.gMeasure q
  wMeasure := by
    intro q; rw [h.w]; exact h.wMeasure q

/-! ### Names and cells -/

theorem Bundle.name_lt' {b : Bundle} {p : ℕ} (hp : p ∈ b.live) : b.name p < b.avail := (Bundle.mem_live.1 hp).2

theorem Bundle.slot_name' {b : Bundle} (h : b.Wf) {p : ℕ} (hp : p ∈ b.live) : b.slot (b.name p) = p :=
  h.slot_name p (Bundle.live_lt hp)

theorem Bundle.name_slot' {b : Bundle} (h : b.Wf) {i : ℕ} (hi : i < b.avail) : b.name (b.slot i) = i :=
  h.name_slot i (lt_of_lt_of_le hi h.avail_le)

theorem Bundle.name_eq_iff {b : Bundle} (h : b.Wf) {p q : ℕ} (hp : p ∈ b.live) (hq : q ∈ b.live) :
    b.name p = b.name q ↔ p = q :=
  ⟨Bundle.name_inj h (Bundle.live_lt hp) (Bundle.live_lt hq), fun e => by rw [e]⟩

/-- The renaming of cells as a permutation. -/
def Bundle.perm {b : Bundle} (h : b.Wf) : Equiv.Perm (Fin MAX_BUNDLE) where
  toFun p := ⟨b.name p, h.name_lt p p.2⟩
  invFun i := ⟨b.slot i, h.slot_lt i i.2⟩
  left_inv p := Fin.ext (h.slot_name p p.2)
  right_inv i := Fin.ext (h.name_slot i i.2)

section
variable {P : Params Q F} {d d' : Diag Q F}

theorem Relabeled.topo' (h : Relabeled d d') (hV : d.Ver.Wf) (hG : d.G.Wf) (hW : d.W.Wf)
    (ht : TopoOk d.Ver.live d.G.live d.W.live d.sh) : TopoOk d'.Ver.live d'.G.live d'.W.live d'.sh := by
  have nV : d.Ver.avail ≤ 20 := hV.avail_le
  have nG : d.G.avail ≤ 20 := hG.avail_le
  have nW : d.W.avail ≤ 20 := hW.avail_le
  rw [h.ver, h.g, h.w, Bundle.ofSize_live nV, Bundle.ofSize_live nG, Bundle.ofSize_live nW]
  constructor
  · intro g q e
    rw [Finset.mem_range] at *
    rw [h.gV g q]; exact Bundle.name_lt' (ht.gV_mem _ (Bundle.slot_mem_live hG q) e)
  · intro g q e
    rw [Finset.mem_range] at *
    have m := ht.gV_mem _ (Bundle.slot_mem_live hG q) e
    rw [h.gV g q, h.vG _ (Bundle.name_lt' m), Bundle.slot_name' hV m, ht.vG_gV _ (Bundle.slot_mem_live hG q),
      Bundle.name_slot' hG q]
  · intro v q e
    rw [Finset.mem_range] at *
    rw [h.vG v q]; exact Bundle.name_lt' (ht.vG_mem _ (Bundle.slot_mem_live hV q) e)
  · intro v q e
    rw [Finset.mem_range] at *
    have m := ht.vG_mem _ (Bundle.slot_mem_live hV q) e
    rw [h.vG v q, h.gV _ (Bundle.name_lt' m), Bundle.slot_name' hG m, ht.gV_vG _ (Bundle.slot_mem_live hV q),
      Bundle.name_slot' hV q]
  · intro w q e
    rw [Finset.mem_range] at *
    rw [h.wV w q]; exact Bundle.name_lt' (ht.wV_mem _ (Bundle.slot_mem_live hW q) e)
  · intro w q e
    rw [Finset.mem_range] at *
    have m := ht.wV_mem _ (Bundle.slot_mem_live hW q) e
    rw [h.wV w q, h.vW _ (Bundle.name_lt' m), Bundle.slot_name' hV m, ht.vW_wV _ (Bundle.slot_mem_live hW q),
      Bundle.name_slot' hW q]
  · intro w q e
    rw [Finset.mem_range] at *
    have m := ht.wV_mem _ (Bundle.slot_mem_live hW q) e
    rw [h.wV w q, h.vDir _ (Bundle.name_lt' m), Bundle.slot_name' hV m, ht.vDir_wV _ (Bundle.slot_mem_live hW q)]
  · intro v q
    rw [Finset.mem_range] at *
    rw [h.vW v q]; exact Bundle.name_lt' (ht.vW_mem _ (Bundle.slot_mem_live hV q))
  · intro v q
    rw [Finset.mem_range] at *
    have m := ht.vW_mem _ (Bundle.slot_mem_live hV q)
    rw [h.vW v q, h.wV _ (Bundle.name_lt' m), h.vDir v q, Bundle.slot_name' hW m, ht.wV_vW _ (Bundle.slot_mem_live hV q),
      Bundle.name_slot' hV q]

theorem Relabeled.topo (h : Relabeled d d') (hi : Inv P d) : TopoOk d'.Ver.live d'.G.live d'.W.live d'.sh :=
  h.topo' hi.count.verWf hi.count.gWf hi.count.wWf hi.topo

theorem Relabeled.sign (h : Relabeled d d') (hi : Inv P d) : SignOk d'.Ver.live d'.sh d'.sfl := by
  have hV := hi.count.verWf
  have hG := hi.count.gWf
  have ht := hi.topo
  obtain ⟨σ, h1, h2⟩ := hi.sign
  have nV : d.Ver.avail ≤ 20 := hV.avail_le
  refine ⟨Bundle.perm hV * σ * (Bundle.perm hV)⁻¹, ?_, ?_⟩
  · intro v
    rw [h.ver, Bundle.ofSize_live nV]
    simp only [Finset.mem_range]
    have e0 : ((Bundle.perm hV)⁻¹ v) = (⟨d.Ver.slot v, hV.slot_lt v v.2⟩ : Fin MAX_BUNDLE) := rfl
    constructor
    · intro q
      have m := Bundle.slot_mem_live hV q
      have m2 := ht.vG_mem _ m OUT
      have k := (h1 ⟨d.Ver.slot v, hV.slot_lt v v.2⟩).1 m
      rw [Equiv.Perm.mul_apply, Equiv.Perm.mul_apply, e0]
      change d.Ver.name (σ _).val = _
      rw [k]
      unfold nextVertex
      dsimp only
      rw [h.vG _ q, h.gV _ (Bundle.name_lt' m2), Bundle.slot_name' hG m2]
    · intro q
      have k := (h1 ⟨d.Ver.slot v, hV.slot_lt v v.2⟩).2 (fun m => q (by
        have := Bundle.name_lt' m
        rwa [hV.name_slot v v.2] at this))
      rw [Equiv.Perm.mul_apply, Equiv.Perm.mul_apply, e0, k]
      exact Fin.ext (hV.name_slot v v.2)
  · rw [h.sfl, h2, Equiv.Perm.sign_mul, Equiv.Perm.sign_mul, Equiv.Perm.sign_inv, mul_comm, ← mul_assoc,
      Int.units_mul_self, one_mul]

theorem Relabeled.inv (h : Relabeled d d') (hi : Inv P d) (hγ : d.hasGamma = 0) : Inv P d' := by
  have hV := hi.count.verWf
  have hG := hi.count.gWf
  have hW := hi.count.wWf
  have ht := hi.topo
  have ht' := h.topo hi
  have nV : d.Ver.avail ≤ 20 := hV.avail_le
  have nG : d.G.avail ≤ 20 := hG.avail_le
  have nW : d.W.avail ≤ 20 := hW.avail_le
  have lV : ∀ v, v ∈ d'.Ver.live ↔ v < d.Ver.avail := fun v => by
    rw [h.ver, Bundle.ofSize_live nV, Finset.mem_range]
  have lG : ∀ v, v ∈ d'.G.live ↔ v < d.G.avail := fun v => by
    rw [h.g, Bundle.ofSize_live nG, Finset.mem_range]
  have lW : ∀ v, v ∈ d'.W.live ↔ v < d.W.avail := fun v => by
    rw [h.w, Bundle.ofSize_live nW, Finset.mem_range]
  have mV : ∀ {v}, v < d.Ver.avail → d.Ver.slot v ∈ d.Ver.live := fun q => Bundle.slot_mem_live hV q
  have mG : ∀ {v}, v < d.G.avail → d.G.slot v ∈ d.G.live := fun q => Bundle.slot_mem_live hG q
  have mW : ∀ {v}, v < d.W.avail → d.W.slot v ∈ d.W.live := fun q => Bundle.slot_mem_live hW q
  -- ends of lines
  have gr : ∀ {g}, g < d.G.avail → ∀ e, d'.co.r (d'.sh.gV g e) = d.co.r (d.sh.gV (d.G.slot g) e) := fun q e => by
    have m := ht.gV_mem _ (mG q) e
    rw [h.gV _ q, h.r _ (Bundle.name_lt' m), Bundle.slot_name' hV m]
  have gt : ∀ {g}, g < d.G.avail → ∀ e, d'.co.tau (d'.sh.gV g e) = d.co.tau (d.sh.gV (d.G.slot g) e) := fun q e => by
    have m := ht.gV_mem _ (mG q) e
    rw [h.gV _ q, h.tau _ (Bundle.name_lt' m), Bundle.slot_name' hV m]
  have gs : ∀ {g}, g < d.G.avail → ∀ e, d'.co.spin (d'.sh.gV g e) = d.co.spin (d.sh.gV (d.G.slot g) e) := fun q e => by
    have m := ht.gV_mem _ (mG q) e
    rw [h.gV _ q, h.spin _ (Bundle.name_lt' m), Bundle.slot_name' hV m]
  have wr : ∀ {g}, g < d.W.avail → ∀ e, d'.co.r (d'.sh.wV g e) = d.co.r (d.sh.wV (d.W.slot g) e) := fun q e => by
    have m := ht.wV_mem _ (mW q) e
    rw [h.wV _ q, h.r _ (Bundle.name_lt' m), Bundle.slot_name' hV m]
  have wt : ∀ {g}, g < d.W.avail → ∀ e, d'.co.tau (d'.sh.wV g e) = d.co.tau (d.sh.wV (d.W.slot g) e) := fun q e => by
    have m := ht.wV_mem _ (mW q) e
    rw [h.wV _ q, h.tau _ (Bundle.name_lt' m), Bundle.slot_name' hV m]
  have ws : ∀ {g}, g < d.W.avail → ∀ e, d'.co.spin (d'.sh.wV g e) = d.co.spin (d.sh.wV (d.W.slot g) e) := fun q e => by
    have m := ht.wV_mem _ (mW q) e
    rw [h.wV _ q, h.spin _ (Bundle.name_lt' m), Bundle.slot_name' hV m]
  have gam : ∀ g < d.G.avail, d'.fl.gGam g = false := fun g q => by
    rw [h.gGam g q]; exact hi.gGam_false hγ _ (mG q)
  have wam : ∀ g < d.W.avail, d'.fl.wGam g = false := fun g q => by
    rw [h.wGam g q]; exact hi.wGam_false hγ _ (mW q)
  have hγ' : d'.hasGamma = 0 := by rw [h.hasGamma, hγ]
  exact
  { count := {
      verWf := by rw [h.ver]; exact Bundle.ofSize_wf nV
      gWf := by rw [h.g]; exact Bundle.ofSize_wf nG
      wWf := by rw [h.w]; exact Bundle.ofSize_wf nW
      n_pos := by rw [h.w]; exact hi.count.n_pos
      n_le := by rw [h.w]; exact hi.count.n_le
      ver := by rw [h.w, h.ver]; exact hi.count.ver
      g := by rw [h.w, h.g]; exact hi.count.g
      order := by
        rw [h.w, h.order, h.exist, h.hasGamma]
        exact hi.count.order }
    topo := ht'
    kcons := by
      intro v q
      rw [lV] at q
      have k := hi.kcons _ (mV q)
      have m1 := ht.vG_mem _ (mV q) IN
      have m2 := ht.vG_mem _ (mV q) OUT
      have m3 := ht.vW_mem _ (mV q)
      unfold KConserved at k ⊢
      rw [h.vG v q, h.vG v q, h.vW v q, h.vDir v q, h.gK _ (Bundle.name_lt' m1), h.gK _ (Bundle.name_lt' m2),
        h.wK _ (Bundle.name_lt' m3), Bundle.slot_name' hG m1, Bundle.slot_name' hG m2, Bundle.slot_name' hW m3, h.exist]
      by_cases he : d.worm.exist = true
      · have i1 : v = d'.worm.ira ↔ d.Ver.slot v = d.worm.ira := by
          rw [h.ira he]
          constructor
          · intro e; rw [e, Bundle.slot_name' hV (hi.worm.ira_mem he)]
          · intro e; rw [← e, Bundle.name_slot' hV q]
        have i2 : v = d'.worm.masha ↔ d.Ver.slot v = d.worm.masha := by
          rw [h.masha he]
          constructor
          · intro e; rw [e, Bundle.slot_name' hV (hi.worm.masha_mem he)]
          · intro e; rw [← e, Bundle.name_slot' hV q]
        simp only [i1, i2, h.wk he]
        exact k
      · simp only [he, Bool.false_eq_true, false_and, if_false] at k ⊢
        exact k
    ghash := {
      mem := fun g q => by rw [lG] at q; rw [h.gK g q]; exact hi.ghash.mem _ (mG q)
      inj := fun g q g' q' e => by
        rw [lG] at q q'
        rw [h.gK g q, h.gK g' q'] at e
        exact Bundle.slot_inj hG q q' (hi.ghash.inj _ (mG q) _ (mG q') e)
      hash := fun k => by
        rw [h.gHash, hi.ghash.hash k]
        constructor
        · rintro ⟨g, m, e⟩
          have q := Bundle.name_lt' m
          exact ⟨_, (lG _).2 q, by rw [h.gK _ q, Bundle.slot_name' hG m, e]⟩
        · rintro ⟨g, q, e⟩
          rw [lG] at q
          exact ⟨_, mG q, by rw [← h.gK g q, e]⟩ }
    whash := {
      mem := fun g q => by rw [lW] at q; rw [h.wK g q]; exact hi.whash.mem _ (mW q)
      ne := fun g q => by rw [lW] at q; rw [h.wK g q]; exact hi.whash.ne _ (mW q)
      inj := fun g q g' q' e => by
        rw [lW] at q q'
        rw [h.wK g q, h.wK g' q'] at e
        exact Bundle.slot_inj hW q q' (hi.whash.inj _ (mW q) _ (mW q') e)
      hash := fun k => by
        rw [h.wHash, hi.whash.hash k]
        constructor
        · rintro ⟨g, m, e⟩
          have q := Bundle.name_lt' m
          exact ⟨_, (lW _).2 q, by rw [h.wK _ q, Bundle.slot_name' hW m, e]⟩
        · rintro ⟨g, q, e⟩
          rw [lW] at q
          exact ⟨_, mW q, by rw [← h.wK g q, e]⟩ }
    spin := by
      intro g q
      rw [lG] at q
      rw [gs q, gs q]
      exact hi.spin _ (mG q)
    worm := {
      ira_mem := fun q => by
        rw [h.exist] at q
        rw [lV, h.ira q]; exact Bundle.name_lt' (hi.worm.ira_mem q)
      masha_mem := fun q => by
        rw [h.exist] at q
        rw [lV, h.masha q]; exact Bundle.name_lt' (hi.worm.masha_mem q)
      ne := fun q => by
        rw [h.exist] at q
        rw [h.ira q, h.masha q, Ne, Bundle.name_eq_iff hV (hi.worm.ira_mem q) (hi.worm.masha_mem q)]
        exact hi.worm.ne q
      masha_dir := fun q => by
        rw [h.exist] at q
        have m := hi.worm.masha_mem q
        rw [h.masha q, h.vDir _ (Bundle.name_lt' m), Bundle.slot_name' hV m]
        exact hi.worm.masha_dir q
      k_in := fun q => by rw [h.exist] at q; rw [h.wk q]; exact hi.worm.k_in q
      dSpin := fun q => by rw [h.exist] at q; rw [h.dSpin q]; exact hi.worm.dSpin q
      wt := fun q => by rw [h.exist] at q; rw [h.wwt q]; exact hi.worm.wt q
      flag := fun w q => by
        rw [lW] at q
        rw [h.wWorm w q, hi.worm.flag _ (mW q), h.exist]
        refine and_congr_right fun he => exists_congr fun e => ?_
        have m := ht.wV_mem _ (mW q) e
        rw [h.ira he, h.masha he, h.wV w q, Bundle.name_eq_iff hV m (hi.worm.ira_mem he),
          Bundle.name_eq_iff hV m (hi.worm.masha_mem he)] }
    meas := {
      g_mem := fun q => by
        rw [h.measG] at q
        rw [lG, h.gMeasure q]; exact Bundle.name_lt' (hi.meas.g_mem q)
      w_mem := fun q => by
        rw [h.measG] at q
        rw [lW, h.wMeasure q]; exact Bundle.name_lt' (hi.meas.w_mem q)
      g_flag := fun g q => by
        rw [lG] at q
        rw [h.gMeas g q, hi.meas.g_flag _ (mG q), h.measG]
        refine and_congr_right fun k => ?_
        rw [h.gMeasure k, ← Bundle.name_eq_iff hG (mG q) (hi.meas.g_mem k), Bundle.name_slot' hG q]
      w_flag := fun g q => by
        rw [lW] at q
        rw [h.wMeas g q, hi.meas.w_flag _ (mW q), h.measG]
        refine and_congr_right fun k => ?_
        rw [h.wMeasure k, ← Bundle.name_eq_iff hW (mW q) (hi.meas.w_mem k), Bundle.name_slot' hW q] }
    delta := fun w q k => by
      rw [lW] at q
      rw [h.wDelta w q] at k
      rw [h.wMeas w q, h.wGam w q]
      exact hi.delta _ (mW q) k
    gamma := {
      le := by omega
      g_flag := fun g q => by
        rw [lG] at q
        rw [gam g q]; exact ⟨nofun, fun k => absurd k.1 (by omega)⟩
      w_flag := fun g q => by
        rw [lW] at q
        rw [wam g q]; exact ⟨nofun, fun k => absurd k.1 (by omega)⟩
      g_ex := fun k => absurd k (by omega)
      w_ex := fun k => absurd k (by omega)
      g_meas := fun g q k => by rw [lG] at q; rw [gam g q] at k; cases k
      w_meas := fun g q k => by rw [lW] at q; rw [wam g q] at k; cases k }
    dom := fun v q => by
      rw [lV] at q
      rw [h.r v q, h.tau v q]
      exact hi.dom _ (mV q)
    ext := fun k => absurd hγ' k
    line := {
      g_eq := fun g q => by
        rw [lG] at q
        rw [h.gWt g q, hi.line.g_eq _ (mG q)]
        unfold gExpected gW0
        rw [gr q, gr q, gt q, gt q, gs q, gs q, h.gMeas g q, gam g q, hi.gGam_false hγ _ (mG q)]
        simp
      w_eq := fun g q => by
        rw [lW] at q
        rw [h.wWt g q, hi.line.w_eq _ (mW q)]
        unfold wExpected wW0
        rw [wr q, wr q, wt q, wt q, ws q, ws q, h.wMeas g q, h.wDelta g q, h.wWorm g q, wam g q,
          hi.wGam_false hγ _ (mW q)]
        simp
      g_ne := fun g q => by rw [lG] at q; rw [h.gWt g q]; exact hi.line.g_ne _ (mG q)
      w_ne := fun g q => by rw [lW] at q; rw [h.wWt g q]; exact hi.line.w_ne _ (mW q) }
    weight := by
      rw [h.weight, hi.weight, h.order]
      split_ifs
      · rfl
      · unfold totalWeight
        rw [h.g, h.w, Bundle.ofSize_live nG, Bundle.ofSize_live nW, ← prod_slot hG, ← prod_slot hW, h.sfl,
          Finset.prod_congr rfl fun g q => (h.gWt g (Finset.mem_range.1 q)).symm,
          Finset.prod_congr rfl fun g q => (h.wWt g (Finset.mem_range.1 q)).symm]
        rfl
    phase := by rw [h.phase, h.weight, hi.phase]
    sign := h.sign hi }

end
end
end Feyn
