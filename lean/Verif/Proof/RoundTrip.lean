import Verif.Proof.Patch

/-!
# Saving and loading
-/

namespace Feyn

set_option linter.unusedSectionVars false
set_option linter.unusedSimpArgs false
set_option linter.unusedVariables false

section
variable {Q F : Type} [Field Q] [LinearOrder Q] [Field F]

/-- The diagram read from the dictionary of `d`, before it is repaired. -/
structure Loaded (d x : Diag Q F) : Prop where
  ver : x.Ver = Bundle.ofSize d.Ver.avail
  g : x.G = Bundle.ofSize d.G.avail
  w : x.W = Bundle.ofSize d.W.avail
  sfl : x.sfl = d.sfl
  hasGamma : x.hasGamma = 0
  gHash : ∀ k, x.mo.gHash k = true ↔ ∃ w < d.G.avail, d.mo.gK (d.G.slot w) = k
  wHash : ∀ k, x.mo.wHash k = true ↔ ∃ w < d.W.avail, |d.mo.wK (d.W.slot w)| = k
  r : ∀ v < d.Ver.avail, x.co.r v = d.co.r (d.Ver.slot v)
  tau : ∀ v < d.Ver.avail, x.co.tau v = d.co.tau (d.Ver.slot v)
  spin : ∀ v < d.Ver.avail, x.co.spin v = d.co.spin (d.Ver.slot v)
  gV : ∀ g < d.G.avail, ∀ e, x.sh.gV g e = d.Ver.name (d.sh.gV (d.G.slot g) e)
  gK : ∀ g < d.G.avail, x.mo.gK g = d.mo.gK (d.G.slot g)
  gMeas : ∀ g < d.G.avail, x.fl.gMeas g = d.fl.gMeas (d.G.slot g)
  wV : ∀ w < d.W.avail, ∀ e, x.sh.wV w e = d.Ver.name (d.sh.wV (d.W.slot w) e)
  wK : ∀ w < d.W.avail, x.mo.wK w = d.mo.wK (d.W.slot w)
  wMeas : ∀ w < d.W.avail, x.fl.wMeas w = d.fl.wMeas (d.W.slot w)
  wDelta : ∀ w < d.W.avail, x.fl.wDelta w = d.fl.wDelta (d.W.slot w)
  exist : x.worm.exist = d.worm.exist
  ira : d.worm.exist = true → x.worm.ira = d.Ver.name d.worm.ira
  masha : d.worm.exist = true → x.worm.masha = d.Ver.name d.worm.masha
  wk : d.worm.exist = true → x.worm.k = d.worm.k
  dSpin : d.worm.exist = true → x.worm.dSpin = d.worm.dSpin
  iraN : d.worm.exist = false → x.worm.ira = NULL
  mashaN : d.worm.exist = false → x.worm.masha = NULL
  measG : x.measG = d.measG
  gMeasure : d.measG = true → x.gMeasure = d.G.name d.gMeasure
  wMeasure : d.measG = false → x.wMeasure = d.W.name d.wMeasure

theorem fresh_topo {d₀ : Diag Q F} (h0 : d₀.Fresh) : TopoOk d₀.Ver.live d₀.G.live d₀.W.live d₀.sh := by
  rw [h0.ver, h0.g, h0.w, Bundle.live_init]
  constructor <;> intro _ q <;> exact absurd q (Finset.notMem_empty _)

/-- `fromDict` up to the final repair. -/
def readDict (dict : DiagDict Q) (d : Diag Q F) : Res (Diag Q F) := do
  let d ← clearDiagram d
  let d ← loopM verFromDict d dict.ver
  let d ← loopM wFromDict d dict.w
  let d ← loopM gFromDict d dict.g
  let d ← wormFromDict d dict.worm
  .ok { d with sfl := dict.sfl }

theorem fromDict_eq (P : Params Q F) (dict : DiagDict Q) (d : Diag Q F) :
    fromDict P dict d = (readDict dict d >>= fixDiagram P) := by
  unfold fromDict readDict
  cases clearDiagram d with
  | ub => rfl
  | abort => rfl
  | ok d =>
  simp only [Res.ok_bind]
  cases loopM verFromDict d dict.ver with
  | ub => rfl
  | abort => rfl
  | ok d =>
  simp only [Res.ok_bind]
  cases loopM wFromDict d dict.w with
  | ub => rfl
  | abort => rfl
  | ok d =>
  simp only [Res.ok_bind]
  cases loopM gFromDict d dict.g with
  | ub => rfl
  | abort => rfl
  | ok d =>
  simp only [Res.ok_bind]
  cases wormFromDict d dict.worm with
  | ub => rfl
  | abort => rfl
  | ok d => rfl

theorem readDict_loaded {P : Params Q F} {d y : Diag Q F} (hi : Inv P d) (hG : y.G = Bundle.ofSize 0)
    (hW : y.W = Bundle.ofSize 0) (hV : y.Ver = Bundle.ofSize 0) (hγ : y.hasGamma = 0)
    (hI : d.worm.exist = false → y.worm.ira = NULL) (hM : d.worm.exist = false → y.worm.masha = NULL) :
    ∃ x, readDict (dictOf d) y = .ok x ∧ Loaded d x := by
  have wV := hi.count.verWf
  have wG := hi.count.gWf
  have wW := hi.count.wWf
  have nV : d.Ver.avail ≤ 20 := wV.avail_le
  unfold readDict clearDiagram
  rw [hG, hW, hV]
  simp only [Bundle.ofSize, clearBundle, Res.ok_bind]
  obtain ⟨x1, e1, k1⟩ := load_ver (d := d) (x₀ := { y with
    mo := { y.mo with gHash := fun _ => false, wHash := fun _ => false }
    G := ⟨id, id, 0⟩
    W := ⟨id, id, 0⟩
    Ver := ⟨id, id, 0⟩ }) rfl nV
  rw [show (dictOf d).ver = (List.range d.Ver.avail).map (verRec d) from rfl, e1, Res.ok_bind]
  obtain ⟨x2, e2, k2⟩ := load_w (x₀ := x1) hi (by rw [k1.eq]; rfl) (by rw [k1.eq]) (by rw [k1.eq]) le_rfl
  rw [show (dictOf d).w = (List.range d.W.avail).map (wRec d) from rfl, e2, Res.ok_bind]
  obtain ⟨x3, e3, k3⟩ := load_g (x₀ := x2) hi (by rw [k2.eq, k1.eq]; rfl) (by rw [k2.eq, k1.eq])
    (by rw [k2.eq, k1.eq]) le_rfl
  rw [show (dictOf d).g = (List.range d.G.avail).map (gRec d) from rfl, e3, Res.ok_bind]
  have bV : x3.Ver = Bundle.ofSize d.Ver.avail := by rw [k3.eq, k2.eq, k1.eq]
  have bW : x3.W = Bundle.ofSize d.W.avail := by rw [k3.eq, k2.eq]
  have bG : x3.G = Bundle.ofSize d.G.avail := by rw [k3.eq]
  have bγ : x3.hasGamma = 0 := by rw [k3.eq, k2.eq, k1.eq]; exact hγ
  have bo : x3.worm = y.worm := by rw [k3.eq, k2.eq, k1.eq]
  have c1 : x3.co = x1.co := by rw [k3.eq, k2.eq]
  have s2 : x3.sh.wV = x2.sh.wV := by rw [k3.eq]
  have m2 : x3.mo.wK = x2.mo.wK := by rw [k3.eq]
  have h2 : x3.mo.wHash = x2.mo.wHash := by rw [k3.eq]
  have f2 : x3.fl.wMeas = x2.fl.wMeas := by rw [k3.eq]
  have f3 : x3.fl.wDelta = x2.fl.wDelta := by rw [k3.eq]
  have gm : d.measG = true → x3.measG = true ∧ x3.gMeasure = d.G.name d.gMeasure := fun q => by
    have m := hi.meas.g_mem q
    have l := Bundle.name_lt' m
    have f : d.fl.gMeas (d.G.slot (d.G.name d.gMeasure)) = true := by
      rw [Bundle.slot_name' wG m]; exact (hi.meas.g_flag _ m).2 ⟨q, rfl⟩
    exact k3.meas _ l f
  have wm : d.measG = false → x3.measG = false ∧ x3.wMeasure = d.W.name d.wMeasure := fun q => by
    have m := hi.meas.w_mem q
    have l := Bundle.name_lt' m
    have f : d.fl.wMeas (d.W.slot (d.W.name d.wMeasure)) = true := by
      rw [Bundle.slot_name' wW m]; exact (hi.meas.w_flag _ m).2 ⟨q, rfl⟩
    have k := k2.meas _ l f
    have n := k3.none fun g l => by
      by_contra c
      have := (hi.meas.g_flag _ (Bundle.slot_mem_live wG l)).1 (by simpa using c)
      rw [q] at this
      exact absurd this.1 (by decide)
    rw [n.1, n.2]
    exact k
  -- the worm
  obtain ⟨x4, e4, wo, q4, ex, ir, ma, wk, ds, in', mn⟩ : ∃ x4, wormFromDict x3 (dictOf d).worm = .ok x4 ∧ ∃ wo,
      x4 = { x3 with worm := wo } ∧ wo.exist = d.worm.exist ∧
      (d.worm.exist = true → wo.ira = d.Ver.name d.worm.ira) ∧
      (d.worm.exist = true → wo.masha = d.Ver.name d.worm.masha) ∧
      (d.worm.exist = true → wo.k = d.worm.k) ∧ (d.worm.exist = true → wo.dSpin = d.worm.dSpin) ∧
      (d.worm.exist = false → wo.ira = NULL) ∧ (d.worm.exist = false → wo.masha = NULL) := by
    by_cases c : d.worm.exist = true
    · rw [show (dictOf d).worm = some ⟨d.Ver.name d.worm.ira, d.Ver.name d.worm.masha, d.worm.dSpin, d.worm.k⟩
        from if_pos c]
      unfold wormFromDict
      dsimp only
      rw [bV, Bundle.ofSize_get_ok (Bundle.name_lt' (hi.worm.ira_mem c)) nV, Res.ok_bind,
        Bundle.ofSize_get_ok (Bundle.name_lt' (hi.worm.masha_mem c)) nV, Res.ok_bind]
      exact ⟨_, rfl, _, rfl, c.symm, fun _ => rfl, fun _ => rfl, fun _ => rfl, fun _ => rfl,
        fun q => absurd c (by rw [q]; exact nofun), fun q => absurd c (by rw [q]; exact nofun)⟩
    · have c' : d.worm.exist = false := by simpa using c
      rw [show (dictOf d).worm = none from if_neg c]
      exact ⟨_, rfl, _, rfl, c'.symm, fun q => absurd q c, fun q => absurd q c, fun q => absurd q c,
        fun q => absurd q c, fun q => by rw [bo]; exact hI q, fun q => by rw [bo]; exact hM q⟩
  rw [e4, Res.ok_bind, q4]
  refine ⟨_, rfl, ?_⟩
  exact {
    ver := bV
    g := bG
    w := bW
    sfl := rfl
    hasGamma := bγ
    gHash := k3.hash
    wHash := fun k => by
      change x3.mo.wHash k = true ↔ _
      rw [h2]; exact k2.hash k
    r := fun v q => by
      change x3.co.r v = _
      rw [c1]; exact k1.r v q
    tau := fun v q => by
      change x3.co.tau v = _
      rw [c1]; exact k1.tau v q
    spin := fun v q => by
      change x3.co.spin v = _
      rw [c1]; exact k1.spin v q
    gV := k3.gV
    gK := k3.gK
    gMeas := k3.gMeas
    wV := fun w q e => by
      change x3.sh.wV w e = _
      rw [s2]; exact k2.wV w q e
    wK := fun w q => by
      change x3.mo.wK w = _
      rw [m2]; exact k2.wK w q
    wMeas := fun w q => by
      change x3.fl.wMeas w = _
      rw [f2]; exact k2.wMeas w q
    wDelta := fun w q => by
      change x3.fl.wDelta w = _
      rw [f3]; exact k2.wDelta w q
    exist := ex
    ira := ir
    masha := ma
    wk := wk
    dSpin := ds
    iraN := in'
    mashaN := mn
    measG := by
      change x3.measG = _
      cases q : d.measG with
      | false => exact (wm q).1
      | true => exact (gm q).1
    gMeasure := fun q => (gm q).2
    wMeasure := fun q => (wm q).2 }

/-- The links that the repair will install. -/
def relink (d x : Diag Q F) : Diag Q F :=
  setSh x (fun v e => d.G.name (d.sh.vG (d.Ver.slot v) e)) (fun v => d.W.name (d.sh.vW (d.Ver.slot v)))
    (fun v => d.sh.vDir (d.Ver.slot v))

theorem Loaded.relabeled {P : Params Q F} (P' : Params Q F) {d x : Diag Q F} (h : Loaded d x) (hi : Inv P d)
    (hγ : d.hasGamma = 0) (hs : NoStaleWorm d) : Relabeled (fixed P' d) (fixed P' (relink d x)) := by
  have hV := hi.count.verWf
  have hG := hi.count.gWf
  have hW := hi.count.wWf
  have ht := hi.topo
  have nV : d.Ver.avail ≤ 20 := hV.avail_le
  have nG : d.G.avail ≤ 20 := hG.avail_le
  have nW : d.W.avail ≤ 20 := hW.avail_le
  have lG : ∀ v, v ∈ x.G.live ↔ v < d.G.avail := fun v => by
    rw [h.g, Bundle.ofSize_live nG, Finset.mem_range]
  have lW : ∀ v, v ∈ x.W.live ↔ v < d.W.avail := fun v => by
    rw [h.w, Bundle.ofSize_live nW, Finset.mem_range]
  have mG : ∀ {v}, v < d.G.avail → d.G.slot v ∈ d.G.live := fun q => Bundle.slot_mem_live hG q
  have mW : ∀ {v}, v < d.W.avail → d.W.slot v ∈ d.W.live := fun q => Bundle.slot_mem_live hW q
  -- ends of lines
  have gr : ∀ {g}, g < d.G.avail → ∀ e, x.co.r (x.sh.gV g e) = d.co.r (d.sh.gV (d.G.slot g) e) := fun q e => by
    have m := ht.gV_mem _ (mG q) e
    rw [h.gV _ q, h.r _ (Bundle.name_lt' m), Bundle.slot_name' hV m]
  have gt : ∀ {g}, g < d.G.avail → ∀ e, x.co.tau (x.sh.gV g e) = d.co.tau (d.sh.gV (d.G.slot g) e) := fun q e => by
    have m := ht.gV_mem _ (mG q) e
    rw [h.gV _ q, h.tau _ (Bundle.name_lt' m), Bundle.slot_name' hV m]
  have gs : ∀ {g}, g < d.G.avail → ∀ e, x.co.spin (x.sh.gV g e) = d.co.spin (d.sh.gV (d.G.slot g) e) := fun q e => by
    have m := ht.gV_mem _ (mG q) e
    rw [h.gV _ q, h.spin _ (Bundle.name_lt' m), Bundle.slot_name' hV m]
  have wr : ∀ {g}, g < d.W.avail → ∀ e, x.co.r (x.sh.wV g e) = d.co.r (d.sh.wV (d.W.slot g) e) := fun q e => by
    have m := ht.wV_mem _ (mW q) e
    rw [h.wV _ q, h.r _ (Bundle.name_lt' m), Bundle.slot_name' hV m]
  have wt : ∀ {g}, g < d.W.avail → ∀ e, x.co.tau (x.sh.wV g e) = d.co.tau (d.sh.wV (d.W.slot g) e) := fun q e => by
    have m := ht.wV_mem _ (mW q) e
    rw [h.wV _ q, h.tau _ (Bundle.name_lt' m), Bundle.slot_name' hV m]
  have ws : ∀ {g}, g < d.W.avail → ∀ e, x.co.spin (x.sh.wV g e) = d.co.spin (d.sh.wV (d.W.slot g) e) := fun q e => by
    have m := ht.wV_mem _ (mW q) e
    rw [h.wV _ q, h.spin _ (Bundle.name_lt' m), Bundle.slot_name' hV m]
  have flag : ∀ {w}, w < d.W.avail → wFlag (relink d x) w = wFlag d (d.W.slot w) := fun {w} q => by
    rw [wFlag_eq hi hs _ (mW q), Bool.eq_iff_iff, hi.worm.flag _ (mW q)]
    have m0 := ht.wV_mem _ (mW q) IN
    have m1 := ht.wV_mem _ (mW q) OUT
    change (x.sh.wV w IN == x.worm.ira || x.sh.wV w IN == x.worm.masha || x.sh.wV w OUT == x.worm.ira ||
      x.sh.wV w OUT == x.worm.masha) = true ↔ _
    simp only [Bool.or_eq_true, beq_iff_eq]
    rw [h.wV w q, h.wV w q]
    cases c : d.worm.exist with
    | true =>
      rw [h.ira c, h.masha c, Bundle.name_eq_iff hV m0 (hi.worm.ira_mem c),
        Bundle.name_eq_iff hV m0 (hi.worm.masha_mem c), Bundle.name_eq_iff hV m1 (hi.worm.ira_mem c),
        Bundle.name_eq_iff hV m1 (hi.worm.masha_mem c)]
      constructor
      · rintro (((q | q) | q) | q)
        · exact ⟨rfl, IN, Or.inl q⟩
        · exact ⟨rfl, IN, Or.inr q⟩
        · exact ⟨rfl, OUT, Or.inl q⟩
        · exact ⟨rfl, OUT, Or.inr q⟩
      · rintro ⟨-, e, q⟩
        cases e <;> tauto
    | false =>
      have l0 := Bundle.name_lt' m0
      have l1 := Bundle.name_lt' m1
      rw [h.iraN c, h.mashaN c]
      constructor
      · intro k; omega
      · rintro ⟨k, -⟩; cases k
  have gw : ∀ {g}, g < d.G.avail → gNew P' (relink d x) g = gNew P' d (d.G.slot g) := fun {g} q => by
    change gW0 P' x.ext (x.co.r (x.sh.gV g IN)) (x.co.r (x.sh.gV g OUT)) (x.co.tau (x.sh.gV g IN))
      (x.co.tau (x.sh.gV g OUT)) (x.co.spin (x.sh.gV g IN) OUT) (x.co.spin (x.sh.gV g OUT) IN)
      (x.fl.gMeas g) false = _
    unfold gNew gW0
    rw [gr q, gr q, gt q, gt q, gs q, gs q, h.gMeas g q]
    simp
  have ww : ∀ {w}, w < d.W.avail → wNew P' (relink d x) w = wNew P' d (d.W.slot w) := fun {w} q => by
    change wW0 P' x.ext (x.co.r (x.sh.wV w IN)) (x.co.r (x.sh.wV w OUT)) (x.co.tau (x.sh.wV w IN))
      (x.co.tau (x.sh.wV w OUT)) (x.co.spin (x.sh.wV w IN)) (x.co.spin (x.sh.wV w OUT))
      (wFlag (relink d x) w) (x.fl.wMeas w) (x.fl.wDelta w) false = _
    unfold wNew wW0
    rw [wr q, wr q, wt q, wt q, ws q, ws q, flag q, h.wMeas w q, h.wDelta w q]
    simp
  have hwt : (∏ g ∈ x.G.live, gNew P' (relink d x) g) * (∏ w ∈ x.W.live, wNew P' (relink d x) w) *
      ((x.sfl : F) * (-1) ^ x.W.avail) =
      (∏ g ∈ d.G.live, gNew P' d g) * (∏ w ∈ d.W.live, wNew P' d w) * ((d.sfl : F) * (-1) ^ d.W.avail) := by
    rw [h.g, h.w, Bundle.ofSize_live nG, Bundle.ofSize_live nW, ← prod_slot hG,
      ← prod_slot hW, h.sfl, Finset.prod_congr rfl fun g q => gw (Finset.mem_range.1 q),
      Finset.prod_congr rfl fun g q => ww (Finset.mem_range.1 q)]
    rfl
  exact {
    ver := h.ver
    g := h.g
    w := h.w
    order := by
      change x.W.avail = d.W.avail
      rw [h.w]; rfl
    sfl := h.sfl
    weight := hwt
    phase := by
      exact congrArg P'.ph hwt
    hasGamma := by
      rw [show (fixed P' d).hasGamma = 0 from hγ]; exact h.hasGamma
    gHash := by
      funext k
      change x.mo.gHash k = d.mo.gHash k
      rw [Bool.eq_iff_iff, h.gHash, hi.ghash.hash]
      constructor
      · rintro ⟨g, q, e⟩; exact ⟨_, mG q, e⟩
      · rintro ⟨g, m, e⟩; exact ⟨_, Bundle.name_lt' m, by rw [Bundle.slot_name' hG m, e]⟩
    wHash := by
      funext k
      change x.mo.wHash k = d.mo.wHash k
      rw [Bool.eq_iff_iff, h.wHash, hi.whash.hash]
      constructor
      · rintro ⟨g, q, e⟩; exact ⟨_, mW q, e⟩
      · rintro ⟨g, m, e⟩; exact ⟨_, Bundle.name_lt' m, by rw [Bundle.slot_name' hW m, e]⟩
    r := h.r
    tau := h.tau
    spin := h.spin
    vDir := fun _ _ => rfl
    vW := fun _ _ => rfl
    vG := fun _ _ _ => rfl
    gV := h.gV
    gK := h.gK
    gMeas := h.gMeas
    gGam := fun g q => (if_pos ((lG g).2 q)).trans (if_pos (mG q)).symm
    gWt := fun g q => ((if_pos ((lG g).2 q)).trans (gw q)).trans (if_pos (mG q)).symm
    wV := h.wV
    wK := h.wK
    wMeas := h.wMeas
    wGam := fun g q => (if_pos ((lW g).2 q)).trans (if_pos (mW q)).symm
    wDelta := h.wDelta
    wWorm := fun g q => ((if_pos ((lW g).2 q)).trans (flag q)).trans (if_pos (mW q)).symm
    wWt := fun g q => ((if_pos ((lW g).2 q)).trans (ww q)).trans (if_pos (mW q)).symm
    exist := h.exist
    ira := h.ira
    masha := h.masha
    wk := h.wk
    dSpin := h.dSpin
    wwt := fun _ => rfl
    measG := h.measG
    gMeasure := h.gMeasure
    wMeasure := h.wMeasure }

theorem Loaded.fix {P : Params Q F} (P' : Params Q F) {d x : Diag Q F} (h : Loaded d x) (hi : Inv P d)
    (hγ : d.hasGamma = 0) (hs : NoStaleWorm d) : ∃ d', fixDiagram P' x = .ok d' ∧ Relabeled (fixed P' d) d' := by
  have hV := hi.count.verWf
  have hG := hi.count.gWf
  have hW := hi.count.wWf
  have ht := hi.topo
  have nV : d.Ver.avail ≤ 20 := hV.avail_le
  have nG : d.G.avail ≤ 20 := hG.avail_le
  have nW : d.W.avail ≤ 20 := hW.avail_le
  have R := h.relabeled P' hi hγ hs
  have T : TopoOk x.Ver.live x.G.live x.W.live (relink d x).sh := R.topo' hV hG hW ht
  have E : fixDiagram P' (relink d x) = .ok (fixed P' (relink d x)) := by
    refine fixDiagram_eq h.hasGamma (by rw [show (relink d x).G = x.G from rfl, h.g]; exact Bundle.ofSize_wf nG)
      (by rw [show (relink d x).W = x.W from rfl, h.w]; exact Bundle.ofSize_wf nW) T ?_ ?_
    · intro q
      have q' : d.worm.exist = true := h.exist ▸ q
      change x.worm.ira ∈ x.Ver.live
      rw [h.ira q', h.ver, Bundle.ofSize_live nV, Finset.mem_range]
      exact Bundle.name_lt' (hi.worm.ira_mem q')
    · intro q
      have q' : d.worm.exist = true := h.exist ▸ q
      change x.worm.masha ∈ x.Ver.live
      rw [h.masha q', h.ver, Bundle.ofSize_live nV, Finset.mem_range]
      exact Bundle.name_lt' (hi.worm.masha_mem q')
  have E' := fixDiagram_patch E x.sh.vG x.sh.vW x.sh.vDir
  refine ⟨_, E', ?_⟩
  have gs : ∀ j < d.G.avail, ∀ e, (relink d x).sh.vG (x.sh.gV (x.G.slot j) e) (!e) = x.G.slot j := fun j q e => by
    have : x.G.slot j ∈ x.G.live := by
      rw [h.g, Bundle.ofSize_live nG, Finset.mem_range]; exact q
    exact T.vG_gV _ this e
  have ws : ∀ j < d.W.avail, ∀ e, (relink d x).sh.vW (x.sh.wV (x.W.slot j) e) = x.W.slot j := fun j q e => by
    have : x.W.slot j ∈ x.W.live := by
      rw [h.w, Bundle.ofSize_live nW, Finset.mem_range]; exact q
    exact T.vW_wV _ this e
  have wd : ∀ j < d.W.avail, ∀ e, (relink d x).sh.vDir (x.sh.wV (x.W.slot j) e) = e := fun j q e => by
    have : x.W.slot j ∈ x.W.live := by
      rw [h.w, Bundle.ofSize_live nW, Finset.mem_range]; exact q
    exact T.vDir_wV _ this e
  have aG : x.G.avail = d.G.avail := by rw [h.g]; rfl
  have aW : x.W.avail = d.W.avail := by rw [h.w]; rfl
  have sG : ∀ j, x.G.slot j = j := fun j => by rw [h.g]; rfl
  have sW : ∀ j, x.W.slot j = j := fun j => by rw [h.w]; rfl
  have mV : ∀ {v}, v < d.Ver.avail → v ∈ x.Ver.live := fun q => by
    rw [h.ver, Bundle.ofSize_live nV, Finset.mem_range]; exact q
  have vDir : ∀ v < d.Ver.avail, linkD x.W.slot x.sh.wV x.sh.vDir x.W.avail v = d.sh.vDir (d.Ver.slot v) := by
    intro v q
    have m := T.vW_mem v (mV q)
    rw [h.w, Bundle.ofSize_live nW, Finset.mem_range] at m
    have k := linkD_eq x.sh.vDir wd le_rfl _ m ((relink d x).sh.vDir v)
    rw [sW, show x.sh.wV ((relink d x).sh.vW v) ((relink d x).sh.vDir v) = v from T.wV_vW v (mV q)] at k
    rw [aW]
    exact k
  have vW : ∀ v < d.Ver.avail, linkW x.W.slot x.sh.wV x.sh.vW x.W.avail v = d.W.name (d.sh.vW (d.Ver.slot v)) := by
    intro v q
    have m := T.vW_mem v (mV q)
    rw [h.w, Bundle.ofSize_live nW, Finset.mem_range] at m
    have k := linkW_eq x.sh.vW ws le_rfl _ m ((relink d x).sh.vDir v)
    rw [sW, show x.sh.wV ((relink d x).sh.vW v) ((relink d x).sh.vDir v) = v from T.wV_vW v (mV q)] at k
    rw [aW]
    exact k
  have vG : ∀ v < d.Ver.avail, ∀ e, linkG x.G.slot x.sh.gV x.sh.vG x.G.avail v e =
      d.G.name (d.sh.vG (d.Ver.slot v) e) := by
    intro v q e
    have m := T.vG_mem v (mV q) e
    rw [h.g, Bundle.ofSize_live nG, Finset.mem_range] at m
    have k := linkG_eq x.sh.vG gs le_rfl _ m (!e)
    rw [sG, show x.sh.gV ((relink d x).sh.vG v e) (!e) = v from T.gV_vG v (mV q) e, Bool.not_not] at k
    rw [aG]
    exact k
  exact { R with vDir := vDir, vW := vW, vG := vG }

/-- Forget the pointers of a deleted worm. They are not saved. -/
def dropWorm (d : Diag Q F) : Diag Q F :=
  { d with worm := { d.worm with
    ira := if d.worm.exist = true then d.worm.ira else NULL
    masha := if d.worm.exist = true then d.worm.masha else NULL } }

theorem dropWorm_inv {P : Params Q F} {d : Diag Q F} (hi : Inv P d) : Inv P (dropWorm d) := by
  by_cases c : d.worm.exist = true
  · have : dropWorm d = d := by
      unfold dropWorm
      simp only [if_pos c]
    rw [this]; exact hi
  · have n : ∀ {p : Prop}, (dropWorm d).worm.exist = true → p := fun q => absurd q c
    exact { hi with
      count := ⟨hi.count.verWf, hi.count.gWf, hi.count.wWf, hi.count.n_pos, hi.count.n_le, hi.count.ver,
        hi.count.g, hi.count.order⟩
      kcons := by
        intro v q
        have k := hi.kcons v q
        have c' : ¬ (dropWorm d).worm.exist = true := c
        unfold KConserved at k ⊢
        simp only [c, c', false_and, if_false] at k ⊢
        exact k
      worm := {
        ira_mem := n
        masha_mem := n
        ne := n
        masha_dir := n
        k_in := n
        dSpin := n
        wt := n
        flag := fun w q => by
          rw [show (dropWorm d).fl.wWorm w = d.fl.wWorm w from rfl, hi.worm.flag w q]
          exact ⟨fun k => absurd k.1 c, fun k => absurd k.1 c⟩ } }

theorem dropWorm_noStale {P : Params Q F} {d : Diag Q F} (hi : Inv P d) : NoStaleWorm (dropWorm d) := by
  by_cases c : d.worm.exist = true
  · exact Or.inl c
  · refine Or.inr ⟨?_, ?_⟩
    · intro m
      have := Bundle.live_lt m
      rw [show (dropWorm d).worm.ira = NULL from if_neg c] at this
      omega
    · intro m
      have := Bundle.live_lt m
      rw [show (dropWorm d).worm.masha = NULL from if_neg c] at this
      omega

theorem dictOf_drop (d : Diag Q F) : dictOf (dropWorm d) = dictOf d := by
  by_cases c : d.worm.exist = true
  · have : dropWorm d = d := by
      unfold dropWorm
      simp only [if_pos c]
    rw [this]
  · have c' : ¬ (dropWorm d).worm.exist = true := c
    unfold dictOf
    rw [if_neg c, if_neg c']
    rfl

theorem load_relabeled {P : Params Q F} (P' : Params Q F) {d d₀ : Diag Q F} (hi : Inv P d) (hγ : d.hasGamma = 0)
    (h0 : d₀.Fresh) :
    ∃ d', loadDiagram P' (dictOf d) d₀ = .ok d' ∧ Relabeled (fixed P' (dropWorm d)) d' := by
  have e : fixDiagram P' d₀ = .ok (fixed P' d₀) := by
    refine fixDiagram_eq h0.hasGamma (by rw [h0.g]; exact Bundle.wf_init) (by rw [h0.w]; exact Bundle.wf_init)
      (fresh_topo h0) ?_ ?_
    · intro q; rw [h0.worm] at q; cases q
    · intro q; rw [h0.worm] at q; cases q
  unfold loadDiagram
  rw [e, Res.ok_bind, fromDict_eq, ← dictOf_drop]
  have hi' := dropWorm_inv hi
  obtain ⟨x, ex, hx⟩ := readDict_loaded (y := fixed P' d₀) hi' h0.g h0.w h0.ver h0.hasGamma (fun _ => h0.ira)
    (fun _ => h0.masha)
  rw [ex, Res.ok_bind]
  exact hx.fix P' hi' hγ (dropWorm_noStale hi)

theorem Relabeled.nonzero {d d' : Diag Q F} (h : Relabeled d d') (hG : d.G.Wf) (hW : d.W.Wf)
    (hn : LinesNonzero d') : LinesNonzero d := by
  have nG : d.G.avail ≤ 20 := hG.avail_le
  have nW : d.W.avail ≤ 20 := hW.avail_le
  constructor
  · intro g m
    have l := Bundle.name_lt' m
    have k := hn.1 (d.G.name g) (by rw [h.g, Bundle.ofSize_live nG, Finset.mem_range]; exact l)
    rwa [h.gWt _ l, Bundle.slot_name' hG m] at k
  · intro g m
    have l := Bundle.name_lt' m
    have k := hn.2 (d.W.name g) (by rw [h.w, Bundle.ofSize_live nW, Finset.mem_range]; exact l)
    rwa [h.wWt _ l, Bundle.slot_name' hW m] at k

/-- A diagram saved in one process and loaded by another. -/
theorem restart_spec {P P' : Params Q F} {d d₀ d' : Diag Q F} {dict : DiagDict Q} (hi : Inv P d) (ha : AnnealTo P P')
    (hγ : d.hasGamma = 0) (h0 : d₀.Fresh) (es : toDict d = .ok dict) (el : loadDiagram P' dict d₀ = .ok d')
    (hn : LinesNonzero d') :
    Relabeled (fixed P' (dropWorm d)) d' ∧ Inv P' (fixed P' (dropWorm d)) ∧ Inv P' d' := by
  rw [toDict_eq hi] at es
  cases es
  obtain ⟨d'', e, hR⟩ := load_relabeled P' hi hγ h0
  rw [e] at el
  cases el
  have hi' := dropWorm_inv hi
  have hf := fixed_inv hi' ha hγ (dropWorm_noStale hi) (hR.nonzero hi.count.gWf hi.count.wWf hn)
  exact ⟨hR, hf, hR.inv hf hγ⟩

theorem Relabeled.of_fixed {P : Params Q F} {d d' : Diag Q F} (hi : Inv P d) (hγ : d.hasGamma = 0)
    (ho : d.order ≠ 0) (h : Relabeled (fixed P (dropWorm d)) d') : Relabeled d d' := by
  rw [fixed_self (dropWorm_inv hi) hγ ho (dropWorm_noStale hi)] at h
  refine ⟨h.ver, h.g, h.w, h.order, h.sfl, h.weight, h.phase, h.hasGamma, h.gHash, h.wHash, h.r, h.tau, h.spin,
    h.vDir, h.vW, h.vG, h.gV, h.gK, h.gMeas, h.gGam, h.gWt, h.wV, h.wK, h.wMeas, h.wGam, h.wDelta, h.wWorm, h.wWt,
    h.exist, fun q => ?_, fun q => ?_, h.wk, h.dSpin, fun q => ?_, h.measG, h.gMeasure, h.wMeasure⟩
  · rw [h.ira q]; exact congrArg d.Ver.name (if_pos q)
  · rw [h.masha q]; exact congrArg d.Ver.name (if_pos q)
  · rw [h.wwt q, hi.worm.wt q]

/-- The line weights of a consistent diagram do not vanish when it is repaired. -/
theorem fixed_nonzero {P : Params Q F} {d : Diag Q F} (hi : Inv P d) (hγ : d.hasGamma = 0) :
    LinesNonzero (fixed P (dropWorm d)) := by
  have hi' := dropWorm_inv hi
  constructor
  · intro g m
    rw [show (fixed P (dropWorm d)).wt.gWt g = gNew P (dropWorm d) g from if_pos m]
    have := hi'.line.g_eq g m
    unfold gExpected at this
    rw [hi'.gGam_false hγ g m] at this
    unfold gNew
    rw [← this]
    exact hi'.line.g_ne g m
  · intro w m
    rw [show (fixed P (dropWorm d)).wt.wWt w = wNew P (dropWorm d) w from if_pos m]
    have := hi'.line.w_eq w m
    unfold wExpected at this
    rw [hi'.wGam_false hγ w m] at this
    unfold wNew
    rw [wFlag_eq hi' (dropWorm_noStale hi) w m, ← this]
    exact hi'.line.w_ne w m

theorem Relabeled.nonzero' {d d' : Diag Q F} (h : Relabeled d d') (hG : d.G.Wf) (hW : d.W.Wf)
    (hn : LinesNonzero d) : LinesNonzero d' := by
  have nG : d.G.avail ≤ 20 := hG.avail_le
  have nW : d.W.avail ≤ 20 := hW.avail_le
  constructor
  · intro g m
    rw [h.g, Bundle.ofSize_live nG, Finset.mem_range] at m
    rw [h.gWt g m]; exact hn.1 _ (Bundle.slot_mem_live hG m)
  · intro g m
    rw [h.w, Bundle.ofSize_live nW, Finset.mem_range] at m
    rw [h.wWt g m]; exact hn.2 _ (Bundle.slot_mem_live hW m)

end
end Feyn
