import Verif.Spec.Monitor
import Verif.Proof.Extra
import Verif.Proof.Select
import Verif.Proof.Weights
import Verif.Props.Estimator
import Verif.Props.IndexMap

/-! Measuring: proofs. -/

namespace Feyn

set_option linter.unusedSectionVars false
set_option linter.unusedSimpArgs false

section
variable {Q F : Type} [Field Q] [LinearOrder Q] [IsStrictOrderedRing Q] [Field F]

/-- Without three-point functions no operation creates a composite line. -/
theorem Op.keep_gamma {op : Op} (h : op.idx < 19) : op.newGamma 0 = 0 := by
  cases op <;> first | rfl | (exact absurd h (by decide))

theorem Reach.noGamma {P₀ : Params Q F} (hP : P₀.Wf) (hS : StartOk P₀) {c : Chain Q F} (h : Reach P₀ c) :
    c.P.runGamma3 = false → c.d.hasGamma = 0 := by
  induction h with
  | start d₀ d hf e =>
    intro _
    obtain ⟨d', e', hs⟩ := buildNew_started (P := P₀) hf
    rw [e] at e'; cases e'
    exact hs.hasGamma
  | hop c c' o hr e ih =>
    obtain ⟨hw, hi⟩ := hr.inv hP hS
    have hpp := (hopOne_inv hw hi e).1
    intro hg
    rw [hpp] at hg
    have h0 := ih hg
    obtain ⟨op, hs, hx, -, -⟩ := selectOp_spec c.P (urn Q (o 0)) (urn_nonneg _) (urn_lt_one _)
    obtain ⟨out, eo, -⟩ := runOp_good hw hi op (fun i => o (i + 1))
    have he := runOp_effect c.P op (fun i => o (i + 1)) c.d out eo
    unfold hopOne at e
    rw [hs] at e
    simp only [eo, Res.ok_bind] at e
    cases e
    show out.d.hasGamma = 0
    by_cases ht : out.tag = .accept
    · rw [(he.2.2 ht).2.2.2, h0]
      refine Op.keep_gamma ?_
      unfold numOps at hx
      rw [hg] at hx
      exact hx
    · rcases he.1 ht with q | ⟨-, e, q⟩
      · rw [q]; exact h0
      · rw [q]; exact h0
  | reweight c P' hr hm ih =>
    obtain ⟨a, b, c', e, f, hl, rfl⟩ := hm
    exact ih
  | anneal c P' d' hr ha hs e hn ih =>
    intro _
    have hγ := fixDiagram_ok_gamma e
    rw [(hr.inv hP hS).2.fix_eq hγ] at e
    cases e
    exact hγ
  | restart c P' dict d₀ d' n hr ha hγ es h0 el hn ih =>
    intro _
    rw [(restart_spec (hr.inv hP hS).2 ha hγ h0 es el hn).1.hasGamma]
    unfold dropWorm
    split_ifs <;> exact hγ

end

section
variable {Q F : Type} [Field Q] [LinearOrder Q] [IsStrictOrderedRing Q] [FloorRing Q] [Field F] [Algebra Q F]

theorem SameModel.runGamma3 {P P' : Params Q F} (h : SameModel P P') : P'.runGamma3 = P.runGamma3 := by
  obtain ⟨a, b, c, e, f, hl, rfl⟩ := h; rfl

theorem SameModel.measuredFits {P P' : Params Q F} (h : SameModel P P') {s : Measured Q F} {sp : ℤ} (hs : s.Fits P sp) :
    s.Fits P' sp := by
  obtain ⟨a, b, c, e, f, hl, rfl⟩ := h
  exact ⟨hs.map, hs.beta, hs.lat, hs.nsub, hs.sp, hs.est⟩

theorem SameModel.fits {P P' : Params Q F} (h : SameModel P P') {m : Monitor Q F} (hs : m.Fits P) : m.Fits P' := by
  have h1 := h.measuredFits hs.sigma
  have h2 := h.measuredFits hs.polar
  obtain ⟨a, b, c, e, f, hl, rfl⟩ := h
  exact ⟨hs.worm, hs.phy, h1, h2, hs.gammaG, hs.gammaW⟩

/-! ### Cells -/

section
variable {P : Params Q F} {s : Measured Q F} {sp : ℤ}

theorem Measured.Fits.site (h : s.Fits P sp) {r : Site} (hr : SiteIn P r) : s.map.SiteOk r := by
  obtain ⟨a, b, c, d, e, f⟩ := hr
  refine ⟨?_, e, by rw [h.nsub]; exact f⟩
  rw [h.lat]
  exact .cons ⟨a, b⟩ (.cons ⟨c, d⟩ .nil)

theorem Measured.Fits.tau (h : s.Fits P sp) {t : Q} (ht : TauIn P t) : s.map.TauOk t := by
  unfold IndexMap.TauOk; rw [h.beta]; exact ht

theorem Measured.Fits.index (h : s.Fits P sp) {s1 s2 : ℤ} {a b : Site} {t1 t2 : Q} (h1 : 0 ≤ s1 ∧ s1 < sp)
    (h2 : 0 ≤ s2 ∧ s2 < sp) (ha : SiteIn P a) (hb : SiteIn P b) (k1 : TauIn P t1) (k2 : TauIn P t2) :
    ∃ j, s.map.smoothIndex s1 s2 a b t1 t2 = .ok j ∧ 0 ≤ j ∧ j < s.map.sizeSmooth := by
  obtain ⟨j, e, j0, j1, -⟩ := C24_smooth_index h.map (s1 := s1) (s2 := s2) (by unfold IndexMap.SpinOk; rw [h.sp]; exact h1)
    (by unfold IndexMap.SpinOk; rw [h.sp]; exact h2) (h.site ha) (h.site hb) (h.tau k1) (h.tau k2)
  refine ⟨j, e, j0, ?_⟩
  rw [h.map.sizeSmooth_eq, IndexMap.latVol_smooth]
  exact j1

theorem Measured.Fits.record (h : s.Fits P sp) {n j : ℤ} (hn : 1 ≤ n ∧ n ≤ P.maxOrd) (hj : 0 ≤ j ∧ j < s.map.sizeSmooth) (w : F) :
    ∃ est, s.est.measure j n w = .ok est ∧ Measured.Fits P { s with est := est } sp ∧ est.normAccu = s.est.normAccu ∧
      ∀ n' j', 0 ≤ j' → j' < s.map.sizeSmooth →
        Measured.cell { s with est := est } n' j' = s.cell n' j' + if n' = n ∧ j' = j then w else 0 := by
  obtain ⟨est, e, hw, -, ha, -, -, hc, hd⟩ := C33_measure h.est hn hj w
  refine ⟨est, e, ⟨h.map, h.beta, h.lat, h.nsub, h.sp, hw⟩, ha, fun n' j' j0 j1 => ?_⟩
  unfold Measured.cell
  simp only
  by_cases q : n' = n ∧ j' = j
  · rw [if_pos q, q.1, q.2, hc]
  · rw [if_neg q, add_zero]
    refine hd _ fun c => q ?_
    exact Histo.index_inj j0 j1 hj.1 hj.2 c

end

theorem bumpAt_ok {l : List (Est Q Q)} {i : ℕ} (h : i < l.length) :
    ∃ l', bumpAt l i = .ok l' ∧ l'.length = l.length ∧ ∀ k, l'[k]? = if k = i then (l[k]?).map Est.counted else l[k]? := by
  unfold bumpAt
  rw [List.getElem?_eq_getElem h]
  refine ⟨_, rfl, by simp, fun k => ?_⟩
  rw [List.getElem?_set]
  by_cases q : i = k
  · subst q
    simp [h, Est.counted, Est.measure]
  · rw [if_neg q, if_neg (Ne.symm q)]

/-! ### Three-point functions -/

theorem diff_window {P : Params Q F} {a b : Q} (ha : TauIn P a) (hb : TauIn P b) : -P.beta ≤ a - b ∧ a - b < P.beta := by
  obtain ⟨a0, a1⟩ := ha
  obtain ⟨b0, b1⟩ := hb
  constructor <;> linarith

theorem site_vec {P : Params Q F} {r : Site} (hr : SiteIn P r) : InLat [(P.lx : ℤ), (P.ly : ℤ)] r.vec :=
  .cons ⟨hr.1, hr.2.1⟩ (.cons ⟨hr.2.2.1, hr.2.2.2.1⟩ .nil)

theorem gammaG_step {P : Params Q F} {g : GammaG Q F} (h : g.Wf) (hb : g.beta = P.beta) (hl : g.lat = [(P.lx : ℤ), (P.ly : ℤ)])
    {rin ur : Site} {tin tout ut : Q} (s : Spin) (w : F) (hr : SiteIn P rin) (hu : SiteIn P ur) (h1 : TauIn P tin)
    (h2 : TauIn P tout) (h3 : TauIn P ut) :
    ∃ g', g.measure rin ur tin tout ut s w = .ok g' ∧ g'.Wf ∧ g'.beta = P.beta ∧ g'.lat = [(P.lx : ℤ), (P.ly : ℤ)] := by
  obtain ⟨b1, k1⟩ := exists_bin (t := tout - ut) h.beta h.bins (by rw [hb]; exact (diff_window h2 h3).1) (by rw [hb]; exact (diff_window h2 h3).2)
  obtain ⟨b2, k2⟩ := exists_bin (t := tin - ut) h.beta h.bins (by rw [hb]; exact (diff_window h1 h3).1) (by rw [hb]; exact (diff_window h1 h3).2)
  refine ⟨_, gammaG_measure h (by rw [hl]; exact site_vec hr) (by rw [hl]; exact site_vec hu) k1 k2 w, ?_, hb, hl⟩
  exact ⟨h.beta, h.bins, h.lat, h.dim, h.fits, h.weight, h.accu⟩

theorem gammaW_step [StarRing F] {P : Params Q F} {g : GammaW Q F} (h : g.Wf) (hb : g.beta = P.beta)
    (hl : g.lat = [(P.lx : ℤ), (P.ly : ℤ)])
    {rin rout ur : Site} {tin tout ut : Q} (sin sout : Dir → Spin) (w : F) (hr : SiteIn P rin) (ho : SiteIn P rout) (hu : SiteIn P ur)
    (h1 : TauIn P tin) (h2 : TauIn P tout) (h3 : TauIn P ut) :
    ∃ g', g.measure rin rout ur tin tout ut sin sout w = .ok g' ∧ g'.Wf ∧ g'.beta = P.beta ∧
      g'.lat = [(P.lx : ℤ), (P.ly : ℤ)] := by
  obtain ⟨b1, k1⟩ := exists_bin (t := tout - ut) h.beta h.bins (by rw [hb]; exact (diff_window h2 h3).1) (by rw [hb]; exact (diff_window h2 h3).2)
  obtain ⟨b2, k2⟩ := exists_bin (t := tin - ut) h.beta h.bins (by rw [hb]; exact (diff_window h1 h3).1) (by rw [hb]; exact (diff_window h1 h3).2)
  obtain ⟨i, j, c, e, f, ei, ej, ec, ee, ef, hc, he, i0, i1⟩ := gammaW_reads h (a := rin) (b := rout) (u := ur)
    (by rw [hl]; exact site_vec hr) (by rw [hl]; exact site_vec ho) (by rw [hl]; exact site_vec hu) k1 k2
  obtain ⟨q1, q2, q3⟩ := channelCell_eq h (gammaSpinIndex sout sin) i0 i1
  have hadd : ∀ x, g.accu.add (channelCell g (gammaSpinIndex sout sin) (i * g.tauSize + j)) x =
      .ok ⟨g.accu.n, fun k => if k = channelCell g (gammaSpinIndex sout sin) (i * g.tauSize + j) then g.accu.data k + x
        else g.accu.data k⟩ := by
    intro x
    unfold Arr.add
    rw [if_pos ⟨q2, by rw [h.accu]; exact q3⟩]
  have hw : ∀ dt, GammaW.Wf { g with accu := ⟨g.accu.n, dt⟩ } := fun dt =>
    ⟨h.beta, h.bins, h.lat, h.dim, h.rSqueeze, h.rSym, h.tauSqueeze, h.tauSym, h.tauFlag, h.rVal, h.tauVal, h.rSymVal,
      h.tauSymVal, h.fits, h.weight, h.accu⟩
  unfold GammaW.measure
  simp only [bin_of_fold h.beta h.bins k1, bin_of_fold h.beta h.bins k2, ei, ej, ec, ee, ef, Res.ok_bind, q1, hadd]
  split_ifs
  all_goals exact ⟨_, rfl, hw _, hb, hl⟩

/-- In a state without worm an interaction line has one of the six spin channels. -/
theorem spin_channel {d : Diag Q F} (hs : SpinWOk d) (hw : d.worm.exist = false) {w : ℕ} (hm : w ∈ d.W.live) :
    gammaSpinIndex (d.co.spin (d.sh.wV w OUT)) (d.co.spin (d.sh.wV w IN)) < 6 := by
  have := hs w hm
  simp only [hw, Bool.false_eq_true, false_and, if_false, sub_zero, excess, spinVal] at this
  unfold gammaSpinIndex
  revert this
  cases d.co.spin (d.sh.wV w IN) IN <;> cases d.co.spin (d.sh.wV w IN) OUT <;> cases d.co.spin (d.sh.wV w OUT) IN <;>
    cases d.co.spin (d.sh.wV w OUT) OUT <;> simp

theorem Histo.measure_scale {h h' : Histo Q F} {i n : ℤ} {w : F} (e : h.measure i n w = .ok h') :
    h'.norm = h.norm ∧ h'.beta = h.beta := by
  unfold Histo.measure at e
  simp only at e
  split_ifs at e
  cases e
  exact ⟨rfl, rfl⟩

/-! ### One measurement -/

section
variable [StarRing F] {P : Params Q F} {d : Diag Q F} {m : Monitor Q F}

theorem orderRW_get (hP : P.Wf) (h : Inv P d) : P.orderRW[d.order]? = some (orderFactor P d) := by
  have : d.order < P.orderRW.length := by
    have h1 := hP.rw_len
    have h2 := h.count.n_le
    rcases h.count.order with q | q <;> omega
  unfold orderFactor
  rw [List.getD_eq_getElem?_getD, List.getElem?_eq_getElem this]
  rfl

theorem order_pos_of_worm (h : Inv P d) (hw : d.worm.exist = true) : 1 ≤ d.order := by
  have h1 := h.count.n_pos
  rcases h.count.order with q | q
  · omega
  · rw [hw] at q; exact absurd q.2.2.1 (by decide)

theorem order_pos_of_gamma (h : Inv P d) (hw : d.hasGamma ≠ 0) : 1 ≤ d.order := by
  have h1 := h.count.n_pos
  rcases h.count.order with q | q
  · omega
  · exact absurd q.2.2.2 hw

theorem order_le (h : Inv P d) : d.order ≤ P.maxOrd := by
  have h2 := h.count.n_le
  rcases h.count.order with q | q <;> omega

/-- Configurations with a worm are only counted. -/
theorem measure_worm (hP : P.Wf) (h : Inv P d) (hf : m.Fits P) (hw : d.worm.exist = true) :
    ∃ m', m.measure P d = .ok m' ∧ m'.Fits P ∧ Recorded P d m m' := by
  have ho := order_pos_of_worm h hw
  have hl := order_le h
  obtain ⟨l', e, el, hk⟩ := bumpAt_ok (l := m.wormE) (i := d.order) (by rw [hf.worm]; omega)
  have key : m.measure P d = .ok { m with
      wormE := l'
      sigmaE := if d.measG = true ∧ d.hasGamma = 0 ∧ 1 ≤ d.order then m.sigmaE.counted else m.sigmaE
      polarE := if d.measG = false ∧ d.hasGamma = 0 ∧ 1 ≤ d.order then m.polarE.counted else m.polarE } := by
    unfold Monitor.measure Monitor.count
    simp only [orderRW_get hP h, hw, if_true, e, Res.ok_bind]
    by_cases hg : d.hasGamma = 0 <;> cases hm : d.measG <;> simp [hg, ho, Est.counted, Est.measure]
  refine ⟨_, key, ⟨by rw [el]; exact hf.worm, hf.phy, hf.sigma, hf.polar, hf.gammaG, hf.gammaW⟩, ?_⟩
  have nS : ¬ MeasuresSigma d := fun q => by have := q.1; rw [hw] at this; exact absurd this (by decide)
  have nP : ¬ MeasuresPolar d := fun q => by have := q.1; rw [hw] at this; exact absurd this (by decide)
  have n0 : ∀ b, normShare P b d = 0 := fun b => by unfold normShare; rw [hw]; simp
  exact {
    worm := fun i => by simp only [hk, hw, true_and]
    phy := fun i => by simp [hw]
    sigmaE := rfl
    polarE := rfl
    gammaGE := by simp [hw]
    gammaWE := by simp [hw]
    sigmaNorm := by simp [n0]
    polarNorm := by simp [n0]
    sigmaScale := ⟨rfl, rfl⟩
    polarScale := ⟨rfl, rfl⟩
    sigmaMap := rfl
    polarMap := rfl
    sigmaHit := fun q => absurd q nS
    polarHit := fun q => absurd q nP
    sigmaCells := fun n j _ _ _ _ => by simp [sigmaShare, nS]
    polarCells := fun n j _ _ _ _ => by simp [polarShare, nP]
    noGammaG := fun _ => rfl
    noGammaW := fun _ => rfl
    gammaG := fun _ g hg => ⟨g, hg, by simp [hw, n0]⟩
    gammaW := fun _ g hg => ⟨g, hg, by simp [hw, n0]⟩ }

theorem Measured.Fits.withNorm {s : Measured Q F} {sp : ℤ} (h : s.Fits P sp) (x : Q) :
    Measured.Fits P { s with est := s.est.measureNorm x } sp :=
  ⟨h.map, h.beta, h.lat, h.nsub, h.sp, ⟨h.est.orders_pos, h.est.size_pos, h.est.fits, h.est.cells, h.est.perOrder⟩⟩

/-- At order zero only the normalisation grows. -/
theorem measure_zero (hP : P.Wf) (h : Inv P d) (hf : m.Fits P) (hw : d.worm.exist = false) (ho : d.order = 0) :
    ∃ m', m.measure P d = .ok m' ∧ m'.Fits P ∧ Recorded P d m m' := by
  have hg : d.hasGamma = 0 := by
    have h1 := h.count.n_pos
    rcases h.count.order with q | q
    · omega
    · exact q.2.2.2
  obtain ⟨l', e, el, hk⟩ := bumpAt_ok (l := m.phyE) (i := d.order) (by rw [hf.phy]; omega)
  have nS : ¬ MeasuresSigma d := fun q => by have := q.2.2.1; omega
  have nP : ¬ MeasuresPolar d := fun q => by have := q.2.2.1; omega
  have key : m.measure P d = .ok { m with
      phyE := l'
      sigma := { m.sigma with est := if d.measG then m.sigma.est.measureNorm (orderFactor P d)⁻¹ else m.sigma.est }
      polar := { m.polar with est := if d.measG then m.polar.est else m.polar.est.measureNorm (orderFactor P d)⁻¹ }
      gammaG := if P.runGamma3 ∧ d.measG then m.gammaG.map fun g => { g with normAccu := g.normAccu + (orderFactor P d)⁻¹ }
        else m.gammaG
      gammaW := if P.runGamma3 ∧ ¬ d.measG then m.gammaW.map fun g => { g with normAccu := g.normAccu + (orderFactor P d)⁻¹ }
        else m.gammaW } := by
    have e0 := orderRW_get hP h
    have e1 := e
    rw [ho] at e0 e1
    unfold Monitor.measure Monitor.count
    simp only [e0, hw, e1, Res.ok_bind, ho, Bool.false_eq_true, if_false, lt_irrefl, Monitor.norm, Monitor.data,
      gt_iff_lt, if_true, ne_eq, not_true_eq_false, hg, decide_true, Bool.or_true, ite_self]
    cases hm : d.measG <;> cases hr : P.runGamma3 <;> simp only [Bool.false_eq_true, if_false, if_true, Res.ok_bind,
      one_div, and_false, false_and, not_false_eq_true, and_true, not_true_eq_false]
    · obtain ⟨g, hg, -⟩ := hf.gammaW hr
      simp [hg, normGammaW]
    · obtain ⟨g, hg, -⟩ := hf.gammaG hr
      simp [hg, normGammaG]
  refine ⟨_, key, ⟨hf.worm, by rw [el]; exact hf.phy, ?_, ?_, ?_, ?_⟩, ?_⟩
  · simp only
    split_ifs
    · exact hf.sigma.withNorm _
    · exact hf.sigma
  · simp only
    split_ifs
    · exact hf.polar
    · exact hf.polar.withNorm _
  · intro hr
    obtain ⟨g, h1, h2, h3, h4⟩ := hf.gammaG hr
    simp only [h1]
    split_ifs
    · exact ⟨_, rfl, ⟨h2.beta, h2.bins, h2.lat, h2.dim, h2.fits, h2.weight, h2.accu⟩, h3, h4⟩
    · exact ⟨_, rfl, h2, h3, h4⟩
  · intro hr
    obtain ⟨g, h1, h2, h3, h4⟩ := hf.gammaW hr
    simp only [h1]
    split_ifs
    · exact ⟨_, rfl, ⟨h2.beta, h2.bins, h2.lat, h2.dim, h2.rSqueeze, h2.rSym, h2.tauSqueeze, h2.tauSym, h2.tauFlag, h2.rVal,
        h2.tauVal, h2.rSymVal, h2.tauSymVal, h2.fits, h2.weight, h2.accu⟩, h3, h4⟩
    · exact ⟨_, rfl, h2, h3, h4⟩
  · exact {
      worm := fun i => by simp [hw]
      phy := fun i => by simp only [hk, hw, true_and]
      sigmaE := by simp [ho]
      polarE := by simp [ho]
      gammaGE := by simp [hg]
      gammaWE := by simp [hg]
      sigmaNorm := by cases hm : d.measG <;> simp [normShare, hw, ho, hm, Histo.measureNorm]
      polarNorm := by cases hm : d.measG <;> simp [normShare, hw, ho, hm, Histo.measureNorm]
      sigmaScale := by cases hm : d.measG <;> simp [hm, Histo.measureNorm]
      polarScale := by cases hm : d.measG <;> simp [hm, Histo.measureNorm]
      sigmaMap := rfl
      polarMap := rfl
      sigmaHit := fun q => absurd q nS
      polarHit := fun q => absurd q nP
      sigmaCells := fun n j _ _ _ _ => by cases hm : d.measG <;> simp [sigmaShare, nS, Measured.cell, hm, Histo.measureNorm]
      polarCells := fun n j _ _ _ _ => by cases hm : d.measG <;> simp [polarShare, nP, Measured.cell, hm, Histo.measureNorm]
      noGammaG := fun q => by simp [q]
      noGammaW := fun q => by simp [q]
      gammaG := fun q g h1 => by cases hm : d.measG <;> simp [q, hm, h1, hg, normShare, hw, ho]
      gammaW := fun q g h1 => by cases hm : d.measG <;> simp [q, hm, h1, hg, normShare, hw, ho] }

theorem ends_dom (h : Inv P d) {v : ℕ} (hv : v ∈ d.Ver.live) : SiteIn P (d.co.r v) ∧ TauIn P (d.co.tau v) := h.dom v hv

/-- Self energy. -/
theorem measure_sigma (hP : P.Wf) (h : Inv P d) (hf : m.Fits P) (hw : d.worm.exist = false) (ho : 1 ≤ d.order)
    (hm : d.measG = true) (hg : d.hasGamma = 0) :
    ∃ m', m.measure P d = .ok m' ∧ m'.Fits P ∧ Recorded P d m m' := by
  have hl := order_le h
  obtain ⟨l', e, el, hk⟩ := bumpAt_ok (l := m.phyE) (i := d.order) (by rw [hf.phy]; omega)
  have hG := h.meas.g_mem hm
  have v1 := h.topo.gV_mem _ hG OUT
  have v2 := h.topo.gV_mem _ hG IN
  obtain ⟨s1, t1⟩ := ends_dom h v1
  obtain ⟨s2, t2⟩ := ends_dom h v2
  obtain ⟨j, ej, j0, j1⟩ := hf.sigma.index (spinNum_range (d.co.spin (d.sh.gV d.gMeasure OUT) IN))
    (spinNum_range (d.co.spin (d.sh.gV d.gMeasure IN) OUT)) s1 s2 t1 t2
  obtain ⟨est, ee, hfe, hn, hc⟩ := hf.sigma.record (n := (d.order : ℤ)) ⟨by omega, by omega⟩ ⟨j0, j1⟩
    ((1 / orderFactor P d) • d.phase * ((sigmaSign m.sigma d : ℤ) : F))
  have nP : ¬ MeasuresPolar d := fun q => by have := q.2.1; rw [hm] at this; exact absurd this (by decide)
  have yS : MeasuresSigma d := ⟨hw, hm, ho, hg⟩
  have n0 : ∀ b, normShare P b d = 0 := fun b => by unfold normShare; rw [if_neg]; omega
  have hcell : sigmaCell m.sigma d = .ok j := ej
  have key : m.measure P d = .ok { m with
      phyE := l', sigmaE := m.sigmaE.counted, sigma := { m.sigma with est := est } } := by
    have o1 : ¬ d.order = 0 := by omega
    have o2 : d.order > 0 := by omega
    unfold Monitor.measure Monitor.count
    simp only [orderRW_get hP h, hw, e, Res.ok_bind, Bool.false_eq_true, if_false, Monitor.norm, Monitor.data, o1, o2,
      if_true, ne_eq, not_false_eq_true, hg, decide_true, Bool.or_true, hm, deref_live hG, deref_live v1, deref_live v2,
      Measured.sigmaMeasure, ej]
    rw [show IndexMap.tauSym m.sigma.map (d.co.tau (d.sh.gV d.gMeasure OUT)) (d.co.tau (d.sh.gV d.gMeasure IN)) =
      sigmaSign m.sigma d from rfl, ee]
    rfl
  refine ⟨_, key, ⟨hf.worm, by rw [el]; exact hf.phy, hfe, hf.polar, hf.gammaG, hf.gammaW⟩, ?_⟩
  exact {
    worm := fun i => by simp [hw]
    phy := fun i => by simp only [hk, hw, true_and]
    sigmaE := by simp [hm, hg, ho]
    polarE := by simp [hm]
    gammaGE := by simp [hg]
    gammaWE := by simp [hg]
    sigmaNorm := by simp [n0, hn]
    polarNorm := by simp [n0]
    sigmaScale := Histo.measure_scale ee
    polarScale := ⟨rfl, rfl⟩
    sigmaMap := rfl
    polarMap := rfl
    sigmaHit := fun _ => ⟨j, j0, j1, hcell⟩
    polarHit := fun q => absurd q nP
    sigmaCells := fun n' j' _ _ q0 q1 => by
      show Measured.cell { m.sigma with est := est } n' j' = _
      rw [hc n' j' q0 q1]
      congr 1
      unfold sigmaShare
      rw [hcell]
      by_cases q : (n' : ℤ) = d.order ∧ j' = j
      · rw [if_pos q, if_pos ⟨yS, q.1, by rw [q.2]⟩, one_div, mul_comm]
      · rw [if_neg q, if_neg]
        rintro ⟨-, a, b⟩
        exact q ⟨a, by injection b with b; exact b.symm⟩
    polarCells := fun n' j' _ _ _ _ => by simp [polarShare, nP]
    noGammaG := fun _ => rfl
    noGammaW := fun _ => rfl
    gammaG := fun _ g q => ⟨g, q, by simp [hg, n0]⟩
    gammaW := fun _ g q => ⟨g, q, by simp [hg, n0]⟩ }

/-- Polarisation. -/
theorem measure_polar (hP : P.Wf) (h : Inv P d) (hf : m.Fits P) (hw : d.worm.exist = false) (ho : 1 ≤ d.order)
    (hm : d.measG = false) (hg : d.hasGamma = 0) :
    ∃ m', m.measure P d = .ok m' ∧ m'.Fits P ∧ Recorded P d m m' := by
  have hl := order_le h
  obtain ⟨l', e, el, hk⟩ := bumpAt_ok (l := m.phyE) (i := d.order) (by rw [hf.phy]; omega)
  have hW := h.meas.w_mem hm
  have v1 := h.topo.wV_mem _ hW OUT
  have v2 := h.topo.wV_mem _ hW IN
  obtain ⟨s1, t1⟩ := ends_dom h v1
  obtain ⟨s2, t2⟩ := ends_dom h v2
  obtain ⟨j, ej, j0, j1⟩ := hf.polar.index (C24_spin_indices.2.2.1 (d.co.spin (d.sh.wV d.wMeasure OUT)))
    (C24_spin_indices.2.2.1 (d.co.spin (d.sh.wV d.wMeasure IN))) s1 s2 t1 t2
  obtain ⟨est, ee, hfe, hn, hc⟩ := hf.polar.record (n := (d.order : ℤ)) ⟨by omega, by omega⟩ ⟨j0, j1⟩
    ((1 / orderFactor P d) • (-1 * d.phase))
  have nS : ¬ MeasuresSigma d := fun q => by have := q.2.1; rw [hm] at this; exact absurd this (by decide)
  have yP : MeasuresPolar d := ⟨hw, hm, ho, hg⟩
  have n0 : ∀ b, normShare P b d = 0 := fun b => by unfold normShare; rw [if_neg]; omega
  have hcell : polarCell m.polar d = .ok j := ej
  have key : m.measure P d = .ok { m with
      phyE := l', polarE := m.polarE.counted, polar := { m.polar with est := est } } := by
    have o1 : ¬ d.order = 0 := by omega
    have o2 : d.order > 0 := by omega
    unfold Monitor.measure Monitor.count
    simp only [orderRW_get hP h, hw, e, Res.ok_bind, Bool.false_eq_true, if_false, Monitor.norm, Monitor.data, o1, o2,
      if_true, ne_eq, not_false_eq_true, hg, decide_true, Bool.or_true, hm, deref_live hW, deref_live v1, deref_live v2,
      Measured.polarMeasure, ej, ee]
    rfl
  refine ⟨_, key, ⟨hf.worm, by rw [el]; exact hf.phy, hf.sigma, hfe, hf.gammaG, hf.gammaW⟩, ?_⟩
  exact {
    worm := fun i => by simp [hw]
    phy := fun i => by simp only [hk, hw, true_and]
    sigmaE := by simp [hm]
    polarE := by simp [hm, hg, ho]
    gammaGE := by simp [hg]
    gammaWE := by simp [hg]
    sigmaNorm := by simp [n0]
    polarNorm := by simp [n0, hn]
    sigmaScale := ⟨rfl, rfl⟩
    polarScale := Histo.measure_scale ee
    sigmaMap := rfl
    polarMap := rfl
    sigmaHit := fun q => absurd q nS
    polarHit := fun _ => ⟨j, j0, j1, hcell⟩
    sigmaCells := fun n' j' _ _ _ _ => by simp [sigmaShare, nS]
    polarCells := fun n' j' _ _ q0 q1 => by
      show Measured.cell { m.polar with est := est } n' j' = _
      rw [hc n' j' q0 q1]
      congr 1
      unfold polarShare
      rw [hcell]
      by_cases q : (n' : ℤ) = d.order ∧ j' = j
      · rw [if_pos q, if_pos ⟨yP, q.1, by rw [q.2]⟩, one_div, neg_one_mul, smul_neg]
      · rw [if_neg q, if_neg]
        rintro ⟨-, a, b⟩
        exact q ⟨a, by injection b with b; exact b.symm⟩
    noGammaG := fun _ => rfl
    noGammaW := fun _ => rfl
    gammaG := fun _ g q => ⟨g, q, by simp [hg, n0]⟩
    gammaW := fun _ g q => ⟨g, q, by simp [hg, n0]⟩ }

theorem rw_div (a b : Q) : 1 / a / b = (a * b)⁻¹ := by rw [one_div, mul_inv, div_eq_mul_inv]

/-- Three-point functions. -/
theorem measure_gamma (hP : P.Wf) (h : Inv P d) (hf : m.Fits P) (hw : d.worm.exist = false)
    (hg : d.hasGamma ≠ 0) (hr : P.runGamma3 = true) :
    ∃ m', m.measure P d = .ok m' ∧ m'.Fits P ∧ Recorded P d m m' := by
  have hl := order_le h
  have ho := order_pos_of_gamma h hg
  obtain ⟨l', e, el, hk⟩ := bumpAt_ok (l := m.phyE) (i := d.order) (by rw [hf.phy]; omega)
  have nS : ¬ MeasuresSigma d := fun q => hg q.2.2.2
  have nP : ¬ MeasuresPolar d := fun q => hg q.2.2.2
  have n0 : ∀ b, normShare P b d = 0 := fun b => by unfold normShare; rw [if_neg]; omega
  have o1 : ¬ d.order = 0 := by omega
  have o2 : d.order > 0 := by omega
  have hx := h.ext hg
  obtain ⟨gg, a1, a2, a3, a4⟩ := hf.gammaG hr
  obtain ⟨gw, b1, b2, b3, b4⟩ := hf.gammaW hr
  cases hm : d.measG with
  | true =>
    have hG := h.meas.g_mem hm
    have v1 := h.topo.gV_mem _ hG OUT
    have v2 := h.topo.gV_mem _ hG IN
    obtain ⟨s1, t1⟩ := ends_dom h v1
    obtain ⟨s2, t2⟩ := ends_dom h v2
    obtain ⟨g', eg, c1, c2, c3⟩ := gammaG_step a2 a3 a4 (d.co.spin (d.sh.gV d.gMeasure OUT) IN)
      ((orderFactor P d * P.gammaGRW)⁻¹ • d.phase) s1 hx.1 t1 t2 hx.2.1
    have key : m.measure P d = .ok { m with phyE := l', gammaGE := m.gammaGE.counted, gammaG := some g' } := by
      unfold Monitor.measure Monitor.count
      simp only [orderRW_get hP h, hw, e, Res.ok_bind, Bool.false_eq_true, if_false, Monitor.norm, Monitor.data, o1, o2,
        if_true, ne_eq, not_false_eq_true, hg, decide_false, Bool.or_false, hm, deref_live hG, deref_live v1, deref_live v2,
        hr, Bool.not_true, a1, rw_div, eg]
      rfl
    refine ⟨_, key, ⟨hf.worm, by rw [el]; exact hf.phy, hf.sigma, hf.polar, fun _ => ⟨g', rfl, c1, c2, c3⟩, hf.gammaW⟩, ?_⟩
    exact {
      worm := fun i => by simp [hw]
      phy := fun i => by simp only [hk, hw, true_and]
      sigmaE := by simp [hg]
      polarE := by simp [hg]
      gammaGE := by simp [hg, hm, hw]
      gammaWE := by simp [hm]
      sigmaNorm := by simp [n0]
      polarNorm := by simp [n0]
      sigmaScale := ⟨rfl, rfl⟩
      polarScale := ⟨rfl, rfl⟩
      sigmaMap := rfl
      polarMap := rfl
      sigmaHit := fun q => absurd q nS
      polarHit := fun q => absurd q nP
      sigmaCells := fun n' j' _ _ _ _ => by simp [sigmaShare, nS]
      polarCells := fun n' j' _ _ _ _ => by simp [polarShare, nP]
      noGammaG := fun q => by simp [hr] at q
      noGammaW := fun q => by simp [hr] at q
      gammaG := fun _ g q => ⟨g', rfl, by
        rw [a1] at q
        cases q
        rw [if_pos ⟨hw, hm, hg⟩]; exact eg⟩
      gammaW := fun _ g q => ⟨g, q, by simp [hm, n0]⟩ }
  | false =>
    have hW := h.meas.w_mem hm
    have v1 := h.topo.wV_mem _ hW OUT
    have v2 := h.topo.wV_mem _ hW IN
    obtain ⟨s1, t1⟩ := ends_dom h v1
    obtain ⟨s2, t2⟩ := ends_dom h v2
    obtain ⟨g', eg, c1, c2, c3⟩ := gammaW_step b2 b3 b4 (d.co.spin (d.sh.wV d.wMeasure IN)) (d.co.spin (d.sh.wV d.wMeasure OUT))
      ((orderFactor P d * P.gammaWRW)⁻¹ • d.phase) s2 s1 hx.1 t2 t1 hx.2.1
    have key : m.measure P d = .ok { m with phyE := l', gammaWE := m.gammaWE.counted, gammaW := some g' } := by
      unfold Monitor.measure Monitor.count
      simp only [orderRW_get hP h, hw, e, Res.ok_bind, Bool.false_eq_true, if_false, Monitor.norm, Monitor.data, o1, o2,
        if_true, ne_eq, not_false_eq_true, hg, decide_false, Bool.or_false, hm, deref_live hW, deref_live v1, deref_live v2,
        hr, Bool.not_true, b1, rw_div, eg]
      rfl
    refine ⟨_, key, ⟨hf.worm, by rw [el]; exact hf.phy, hf.sigma, hf.polar, hf.gammaG, fun _ => ⟨g', rfl, c1, c2, c3⟩⟩, ?_⟩
    exact {
      worm := fun i => by simp [hw]
      phy := fun i => by simp only [hk, hw, true_and]
      sigmaE := by simp [hg]
      polarE := by simp [hg]
      gammaGE := by simp [hm]
      gammaWE := by simp [hg, hm, hw]
      sigmaNorm := by simp [n0]
      polarNorm := by simp [n0]
      sigmaScale := ⟨rfl, rfl⟩
      polarScale := ⟨rfl, rfl⟩
      sigmaMap := rfl
      polarMap := rfl
      sigmaHit := fun q => absurd q nS
      polarHit := fun q => absurd q nP
      sigmaCells := fun n' j' _ _ _ _ => by simp [sigmaShare, nS]
      polarCells := fun n' j' _ _ _ _ => by simp [polarShare, nP]
      noGammaG := fun q => by simp [hr] at q
      noGammaW := fun q => by simp [hr] at q
      gammaG := fun _ g q => ⟨g, q, by simp [hm, n0]⟩
      gammaW := fun _ g q => ⟨g', rfl, by
        rw [b1] at q
        cases q
        rw [if_pos ⟨hw, hm, hg⟩]; exact eg⟩ }

theorem measure_ok (hP : P.Wf) (h : Inv P d) (hn : P.runGamma3 = false → d.hasGamma = 0) (hf : m.Fits P) :
    ∃ m', m.measure P d = .ok m' ∧ m'.Fits P ∧ Recorded P d m m' := by
  cases hw : d.worm.exist with
  | true => exact measure_worm hP h hf hw
  | false =>
    by_cases ho : d.order = 0
    · exact measure_zero hP h hf hw ho
    · by_cases hg : d.hasGamma = 0
      · cases hm : d.measG with
        | true => exact measure_sigma hP h hf hw (by omega) hm hg
        | false => exact measure_polar hP h hf hw (by omega) hm hg
      · refine measure_gamma hP h hf hw hg ?_
        cases hr : P.runGamma3 with
        | true => rfl
        | false => exact absurd (hn hr) hg

end

end
end Feyn
