import Verif.Spec.First
import Verif.Props.Tables
import Verif.Props.Chain
import Verif.Props.Diagram
import Verif.Props.Monitor
import Verif.Props.Env
import Verif.Proof.Order0

/-!
# First order (C72)
-/

namespace Feyn
open IndexMap

set_option linter.unusedSectionVars false

section
variable {F : Type} [Field F]

/-- The self energy of first order in Python is the sum over the spin of the propagator. -/
theorem pySigmaFirst_eq (G W : NArr F) (s a s' b r t : ℤ) : pySigmaFirst G W [s, a, s', b, r, t] =
    if s = s' ∧ (s = 0 ∨ s = 1) then
      -(G.get [0, a, 0, b, r, t] * W.get [2 * s, a, s, b, r, t]) - G.get [1, a, 1, b, r, t] * W.get [2 * s + 1, a, 2 + s, b, r, t]
    else 0 := by
  simp only [pySigmaFirst, pySpinPairs, List.foldl_cons, List.foldl_nil, pySpin2Index]
  by_cases e : s = s'
  · subst e
    by_cases h0 : s = 0
    · subst h0; simp; ring
    by_cases h1 : s = 1
    · subst h1; simp; ring
    simp [h0, h1]
  · rw [if_neg (by omega), if_neg (by omega), if_neg (by omega), if_neg (by omega), if_neg (fun q => e q.1)]

/-- **C72**, Python: the self energy of first order at one site is the sum of its two diagrams, those of the two spins of the propagator. -/
theorem C72_python_sigma (g w : NArr F) (s1 : Spin) (a t : ℤ) :
    pySigmaFirst g w [pySpin s1, a, pySpin s1, a, 0, t] = fockTerm g w s1 UP a t + fockTerm g w s1 DOWN a t := by
  rw [pySigmaFirst_eq, if_pos ⟨rfl, by cases s1 <;> simp [pySpin]⟩]
  cases s1 <;> simp [fockTerm, pySpin] <;> ring

/-- The polarisation of first order in Python. -/
theorem pyPolarFirst_eq (bins : ℕ) (G : NArr F) (s1 s2 : Spin) (a b r t : ℤ) :
    pyPolarFirst bins G [2 * pySpin s1 + pySpin s2, a, 2 * pySpin s2 + pySpin s1, b, r, t] =
      -(G.get [pySpin s1, b, pySpin s1, a, r, bins - 1 - t] * G.get [pySpin s2, a, pySpin s2, b, r, t]) := by
  simp only [pyPolarFirst, pySpinPairs, List.foldl_cons, List.foldl_nil, pySpin2Index]
  cases s1 <;> cases s2 <;> simp [pySpin]

/-- **C72**, Python: the polarisation of first order at one site is the one diagram. -/
theorem C72_python_polar (bins : ℕ) (g : NArr F) (s1 s2 : Spin) (a t : ℤ) :
    pyPolarFirst bins g [2 * pySpin s1 + pySpin s2, a, 2 * pySpin s2 + pySpin s1, a, 0, t] = bubbleTerm bins g s1 s2 a t :=
  pyPolarFirst_eq bins g s1 s2 a a 0 t

end

section
variable {Q F : Type} [Field Q] [LinearOrder Q] [IsStrictOrderedRing Q] [FloorRing Q] [Field F] [StarRing F]
variable {P : Params Q F} {bins : ℕ} {g w w0 : NArr F}

theorem pyCoordi_self (l : List ℤ) (a : Site) : pyCoordiIndex l (relCoord l a a) = 0 := by
  rcases l with _ | ⟨x, _ | ⟨y, l⟩⟩ <;> simp [relCoord, pyCoordiIndex]

/-- Reading the differences of two times in the two orders. -/
theorem pyTau_reverse {beta t1 t2 : Q} (hb : 0 < beta) (hn : 0 < bins) (ho : OffBins beta bins t1 t2) :
    pyTauIndex beta bins t2 t1 = bins - 1 - pyTauIndex beta bins t1 t2 := by
  have hn' : (0 : Q) < bins := by exact_mod_cast hn
  have hw : 0 < beta / bins := div_pos hb hn'
  have key : ∀ x : Q, (∀ k : ℤ, x ≠ k * (beta / bins)) → ⌊-x * (1 / (beta / bins))⌋ = -1 - ⌊x * (1 / (beta / bins))⌋ := by
    intro x hx
    rw [Int.floor_eq_iff]
    have f1 := Int.floor_le (x * (1 / (beta / bins)))
    have f2 := Int.lt_floor_add_one (x * (1 / (beta / bins)))
    have f3 : ((⌊x * (1 / (beta / bins))⌋ : ℤ) : Q) ≠ x * (1 / (beta / bins)) := by
      intro e
      apply hx ⌊x * (1 / (beta / bins))⌋
      rw [e]
      field_simp
    have f4 := lt_of_le_of_ne f1 f3
    push_cast
    constructor <;> linarith
  have k := key (t2 - t1) ho
  have e : t1 - t2 = -(t2 - t1) := by ring
  have hne : t2 - t1 ≠ 0 := by simpa using ho 0
  unfold pyTauIndex
  rw [e, k]
  rcases lt_or_gt_of_ne hne with c | c
  · rw [if_pos (by linarith), if_neg (by linarith)]
    ring
  · rw [if_neg (by linarith), if_pos (by linarith)]
    ring

theorem FromArrays.wf (h : FromArrays P bins g w w0) (hP : P.Wf) {sp : ℤ} (h1 : 0 < sp) (h2 : sp ≤ 4) (sym : ℤ) :
    (⟨P.beta, bins, [(P.lx : ℤ), (P.ly : ℤ)], P.nsub, sp, sym⟩ : IndexMap Q).Wf := by
  have a := hP.lx_pos
  have b := hP.ly_pos
  have c := hP.nsub_pos
  have hf := h.fits
  refine ⟨hP.beta_pos, h.pos, ?_, rfl, (by simpa using c), h1, ?_⟩
  · exact ⟨by simp, (by simp; omega : ∀ s ∈ [(P.lx : ℤ), (P.ly : ℤ)], 0 < s)⟩
  · have e : latVol [(P.lx : ℤ), (P.ly : ℤ)] = P.lx * P.ly := by rw [latVol_prod]; simp
    simp only [e]
    have hz : (0 : ℤ) ≤ (P.nsub : ℤ) * P.nsub * (P.lx * P.ly) * bins := by positivity
    have : sp * sp ≤ 16 := by nlinarith
    calc sp * (P.nsub : ℤ) * sp * P.nsub * (P.lx * P.ly) * bins = sp * sp * ((P.nsub : ℤ) * P.nsub * (P.lx * P.ly) * bins) := by ring
      _ ≤ 16 * ((P.nsub : ℤ) * P.nsub * (P.lx * P.ly) * bins) := mul_le_mul_of_nonneg_right this hz
      _ < _ := by linarith

theorem siteOk_of {sp sym : ℤ} {a : Site} (h : SiteIn P a) : (⟨P.beta, bins, [(P.lx : ℤ), (P.ly : ℤ)], P.nsub, sp, sym⟩ : IndexMap Q).SiteOk a := by
  obtain ⟨h1, h2, h3, h4, h5, h6⟩ := h
  exact ⟨.cons ⟨h1, h2⟩ (.cons ⟨h3, h4⟩ .nil), h5, h6⟩

/-- A propagator of the simulation that stays on a site is an element of the array. -/
theorem FromArrays.g_eq (h : FromArrays P bins g w w0) (hP : P.Wf) (e : Ext Q) {a : Site} {t1 t2 : Q} (s1 s2 : Spin) (ha : SiteIn P a) (h1 : TauIn P t1) (h2 : TauIn P t2) :
    gW0 P e a a t1 t2 s1 s2 false false =
        (if t2 > t1 then 1 else -1) * g.get [pySpin s1, a.sub, pySpin s2, a.sub, 0, pyTauIndex P.beta bins t1 t2] ∧
      gW0 P e a a t1 t2 s1 s2 true false = 1 := by
  obtain ⟨T₀, T, hm, hn, hn', h1', hr, hv⟩ := h.gTab
  have hwf := h.wf hP (sp := 2) (by norm_num) (by norm_num) (-1)
  have hs := h.gShape
  obtain ⟨T', e', hT⟩ := C71_G (T := T₀) (by rw [hm]; exact hwf) (by rw [hm]) (by rw [hm]) (by rw [hm, hn, hs]) (by rw [hm]; exact hs) h.gComplex
  rw [hr] at e'
  cases e'
  have ha' : T₀.map.SiteOk a := by rw [hm]; exact siteOk_of ha
  have k1 : T₀.map.TauOk t1 := by rw [hm]; exact h1
  have k2 : T₀.map.TauOk t2 := by rw [hm]; exact h2
  constructor
  · have := hT e s1 s2 ha' ha' k1 k2
    rw [hv e a a t1 t2 s1 s2 false ha ha h1 h2] at this
    rw [Res.ok.injEq] at this
    rw [this, hm]
    simp only [pyIndices, pyCoordi_self]
  · have := hv e a a t1 t2 s1 s2 true ha ha h1 h2
    have hTm : T.meas = T₀.meas ∧ T.map = T₀.map := by
      unfold GTab.fromDict at hr
      cases hx : T₀.smooth.fromDict T₀.map.smoothShape g with
      | ok x => rw [hx] at hr; cases hr; exact ⟨rfl, rfl⟩
      | abort => rw [hx] at hr; cases hr
      | ub => rw [hx] at hr; cases hr
    have hk : ∀ s : Spin, T₀.map.SpinOk (spinNum s) := by
      intro s
      unfold IndexMap.SpinOk
      rw [hm]
      exact C24_spin_indices.1 s
    have hw' : T₀.map.Wf := by rw [hm]; exact hwf
    have hi := (C71_address hw' (hk s1) (hk s2) ha' ha' k1 k2).1
    have hrg := ravel_range (pyIndices_in hw' (hk s1) (hk s2) ha' ha' k1 k2).1
    unfold GTab.weight0 at this
    simp only [hTm.2, hi, Res.ok_bind, hTm.1, Arr.at, if_true, hn', hs] at this
    rw [if_pos (by rw [hm] at hrg ⊢; exact hrg), h1', Res.ok.injEq] at this
    exact this.symm

/-- The same for an interaction of a site with itself. -/
theorem FromArrays.w_eq (h : FromArrays P bins g w w0) (hP : P.Wf) (e : Ext Q) {a : Site} {t1 t2 : Q} (s1 s2 : Dir → Spin) (ha : SiteIn P a) (h1 : TauIn P t1) (h2 : TauIn P t2) :
    wW0 P e a a t1 t2 s1 s2 false false false false =
        w.get [2 * pySpin (s1 IN) + pySpin (s1 OUT), a.sub, 2 * pySpin (s2 IN) + pySpin (s2 OUT), a.sub, 0, pyTauIndex P.beta bins t1 t2] ∧
      wW0 P e a a t1 t2 s1 s2 false false true false =
        w0.get [2 * pySpin (s1 IN) + pySpin (s1 OUT), a.sub, 2 * pySpin (s2 IN) + pySpin (s2 OUT), a.sub, 0] ∧
      wW0 P e a a t1 t2 s1 s2 false true false false = 1 := by
  obtain ⟨U₀, U, hm, hn, hn', hd, h1', hr, hv⟩ := h.wTab
  have hwf := h.wf hP (sp := 4) (by norm_num) (by norm_num) 1
  obtain ⟨T', e', hT⟩ := C71_W (T := U₀) (by rw [hm]; exact hwf) (by rw [hm]) (by rw [hm, hn, h.wShape]) (by rw [hm, hd, h.w0Shape])
    (by rw [hm]; exact h.wShape) (by rw [hm]; exact h.w0Shape) h.wComplex h.w0Complex
  rw [hr] at e'
  cases e'
  have ha' : U₀.map.SiteOk a := by rw [hm]; exact siteOk_of ha
  have k1 : U₀.map.TauOk t1 := by rw [hm]; exact h1
  have k2 : U₀.map.TauOk t2 := by rw [hm]; exact h2
  have hc : ∀ x y : ℤ, pySpin2Index x y = 2 * x + y := fun x y => by unfold pySpin2Index; ring
  have := hT e s1 s2 ha' ha' k1 k2
  simp only [hv e a a t1 t2 s1 s2 false false false ha ha h1 h2, hv e a a t1 t2 s1 s2 false false true ha ha h1 h2, Res.ok.injEq] at this
  refine ⟨?_, ?_, ?_⟩
  · rw [this.1, hm]
    simp only [pyIndices, pyCoordi_self, hc]
  · rw [this.2, hm]
    simp only [pyIndices, pyCoordi_self, hc, List.dropLast]
  · have := hv e a a t1 t2 s1 s2 false true false ha ha h1 h2
    have hTm : U.meas = U₀.meas ∧ U.map = U₀.map := by
      unfold WTab.fromDict at hr
      cases hx : U₀.smooth.fromDict U₀.map.smoothShape w with
      | ok x =>
        cases hy : U₀.delta.fromDict U₀.map.deltaShape w0 with
        | ok y => simp only [hx, hy, Res.ok_bind] at hr; cases hr; exact ⟨rfl, rfl⟩
        | abort => simp [hx, hy] at hr
        | ub => simp [hx, hy] at hr
      | abort => simp [hx] at hr
      | ub => simp [hx] at hr
    have hk : ∀ s : Dir → Spin, U₀.map.SpinOk (spinNum2 s) := by
      intro s
      unfold IndexMap.SpinOk
      rw [hm]
      exact C24_spin_indices.2.2.1 s
    have hw' : U₀.map.Wf := by rw [hm]; exact hwf
    have hi := (C71_address hw' (hk s1) (hk s2) ha' ha' k1 k2).1
    have hrg := ravel_range (pyIndices_in hw' (hk s1) (hk s2) ha' ha' k1 k2).1
    unfold WTab.weight0 at this
    simp only [hTm.2, hi, Res.ok_bind, hTm.1, Arr.at, if_true, hn', h.wShape, Bool.false_eq_true, if_false] at this
    rw [if_pos (by rw [hm] at hrg ⊢; exact hrg), h1', Res.ok.injEq] at this
    exact this.symm


variable {P₀ : Params Q F} {c : Chain Q F} {d : Diag Q F}

/-- A diagram of first order: two vertices on one site, two propagators between them and one interaction. -/
theorem order_one (hi : Inv P d) (hsg : SiteGOk d) (ho : d.order = 1) (hw : d.worm.exist = false) (hγ : d.hasGamma = 0) {v1 v2 : ℕ}
    (hv1 : v1 ∈ d.Ver.live) (hv2 : v2 ∈ d.Ver.live) (hne : v1 ≠ v2) :
    d.weight = -(d.wt.gWt (d.sh.vG v1 OUT) * d.wt.gWt (d.sh.vG v2 OUT) * d.wt.wWt (d.sh.vW v1)) ∧
      d.co.r v2 = d.co.r v1 ∧ d.co.spin v2 IN = d.co.spin v1 OUT ∧ d.co.spin v2 OUT = d.co.spin v1 IN ∧
      d.wt.gWt (d.sh.vG v1 OUT) = gW0 P d.ext (d.co.r v1) (d.co.r v1) (d.co.tau v1) (d.co.tau v2) (d.co.spin v1 OUT) (d.co.spin v1 OUT)
        (d.fl.gMeas (d.sh.vG v1 OUT)) false ∧
      d.wt.gWt (d.sh.vG v2 OUT) = gW0 P d.ext (d.co.r v1) (d.co.r v1) (d.co.tau v2) (d.co.tau v1) (d.co.spin v1 IN) (d.co.spin v1 IN)
        (d.fl.gMeas (d.sh.vG v2 OUT)) false ∧
      d.wt.wWt (d.sh.vW v1) = (if d.sh.vDir v1 = IN then
          wW0 P d.ext (d.co.r v1) (d.co.r v1) (d.co.tau v1) (d.co.tau v2) (d.co.spin v1) (d.co.spin v2) false
            (d.fl.wMeas (d.sh.vW v1)) (d.fl.wDelta (d.sh.vW v1)) false
        else wW0 P d.ext (d.co.r v1) (d.co.r v1) (d.co.tau v2) (d.co.tau v1) (d.co.spin v2) (d.co.spin v1) false
            (d.fl.wMeas (d.sh.vW v1)) (d.fl.wDelta (d.sh.vW v1)) false) ∧
      d.G.live = {d.sh.vG v1 OUT, d.sh.vG v2 OUT} ∧ d.sh.vG v1 OUT ≠ d.sh.vG v2 OUT ∧ d.W.live = {d.sh.vW v1} := by
  have hn : d.W.avail = 1 := by rw [← hi.order_eq (by omega), ho]
  have hV : d.Ver.live = {v1, v2} := by
    have hc := Bundle.card_live hi.count.verWf
    have := hi.count.ver
    rw [hn] at this
    symm
    apply Finset.eq_of_subset_of_card_le
    · intro x hx
      simp only [Finset.mem_insert, Finset.mem_singleton] at hx
      rcases hx with rfl | rfl <;> assumption
    · rw [hc, this, Finset.card_pair hne]
  obtain ⟨t1, t2, hg, hG, hW, hwv⟩ := hi.pairTopo hn hw hv1 hv2 hne hV
  have f1 := hi.topo.gV_vG v1 hv1 OUT
  have f2 := hi.topo.gV_vG v2 hv2 OUT
  simp only [Bool.not_true] at f1 f2
  have m1 := hi.topo.vG_mem v1 hv1 OUT
  have m2 := hi.topo.vG_mem v2 hv2 OUT
  have m3 := hi.topo.vW_mem v1 hv1
  have hr : d.co.r v2 = d.co.r v1 := by
    have := hsg _ m1 IN
    rw [Bool.not_false, f1, t1] at this
    exact this.symm
  have p1 := hi.spin _ m1
  have p2 := hi.spin _ m2
  rw [f1, t1] at p1
  rw [f2, t2] at p2
  have q1 : d.fl.gGam (d.sh.vG v1 OUT) = false := by
    have := hi.gamma.g_flag _ m1
    simpa [hγ] using this
  have q2 : d.fl.gGam (d.sh.vG v2 OUT) = false := by
    have := hi.gamma.g_flag _ m2
    simpa [hγ] using this
  have q3 : d.fl.wGam (d.sh.vW v1) = false := by
    have := hi.gamma.w_flag _ m3
    simpa [hγ] using this
  have q4 : d.fl.wWorm (d.sh.vW v1) = false := by
    have := hi.worm.flag _ m3
    simpa [hw] using this
  refine ⟨?_, hr, p1.symm, p2, ?_, ?_, ?_, hG, hg, hW⟩
  · rw [hi.weight, if_neg (by omega)]
    unfold totalWeight
    rw [hG, hW, Finset.prod_pair hg, Finset.prod_singleton, hi.sfl_one hn hw, hn]
    push_cast
    ring
  · rw [hi.line.g_eq _ m1]
    unfold gExpected
    rw [f1, t1, hr, q1, ← p1]
  · rw [hi.line.g_eq _ m2]
    unfold gExpected
    rw [f2, t2, hr, q2, p2]
  · rw [hi.line.w_eq _ m3]
    unfold wExpected
    have f3 := hi.topo.wV_vW v1 hv1
    rw [q3, q4]
    cases hd : d.sh.vDir v1 <;> rw [hd] at f3 hwv <;> simp only [Bool.not_false, Bool.not_true] at hwv <;> rw [f3, hwv, hr] <;> rfl

theorem siteG_of (hP : P₀.Wf) (hS : StartOk P₀) (h : Reach P₀ c) : SiteGOk c.d := by
  intro x hx e
  have := (C50_propagators_are_local hP hS h).1 x hx
  cases e
  · exact this
  · exact this.symm

/-- A diagram of first order with a measured propagator is one of the diagrams of the self energy. -/
theorem sigma_one (hPc : P.Wf) (hi : Inv P d) (hsg : SiteGOk d) (hl : FromArrays P bins g w w0) (hw0 : NoOnsite P.nsub w0) (hwe : EndsAlike P.nsub bins w)
    {s : Measured Q F} (hs : s.Fits P 2) (hb : s.map.bins = bins) (hsym : s.map.sym = -1) (hm : MeasuresSigma d) (ho : d.order = 1)
    (hoff : OffBins P.beta bins (d.co.tau (d.sh.gV d.gMeasure OUT)) (d.co.tau (d.sh.gV d.gMeasure IN))) {v1 v2 : ℕ} (ev1 : v1 = d.sh.gV d.gMeasure OUT)
    (ev2 : v2 = d.sh.gV d.gMeasure IN) {t : ℤ} (et : t = pyTauIndex P.beta bins (d.co.tau v1) (d.co.tau v2)) :
    Element 2 P.nsub (P.lx * P.ly) bins (pySpin (d.co.spin v1 IN)) (d.co.r v1).sub (pySpin (d.co.spin v1 IN)) (d.co.r v1).sub 0 t ∧
      sigmaCell s d = .ok (ravel g.shape [pySpin (d.co.spin v1 IN), (d.co.r v1).sub, pySpin (d.co.spin v1 IN), (d.co.r v1).sub, 0, t]) ∧
      (sigmaSign s d : F) * d.weight = fockTerm g w (d.co.spin v1 IN) (d.co.spin v1 OUT) (d.co.r v1).sub t := by
  obtain ⟨hw, hmG, -, hγ⟩ := hm
  have hgm := hi.meas.g_mem hmG
  set gM := d.gMeasure with hgM
  rw [← ev1, ← ev2] at hoff
  have hv1 : v1 ∈ d.Ver.live := by rw [ev1]; exact hi.topo.gV_mem _ hgm OUT
  have hv2 : v2 ∈ d.Ver.live := by rw [ev2]; exact hi.topo.gV_mem _ hgm IN
  have hne : v1 ≠ v2 := by
    intro e
    refine hi.noTadpole hw hv1 ?_
    have a1 := hi.topo.vG_gV gM hgm OUT
    have a2 := hi.topo.vG_gV gM hgm IN
    rw [← ev1] at a1
    rw [← ev2, ← e] at a2
    exact a1.trans a2.symm
  obtain ⟨hwt, hr, p1, p2, e1, e2, e3, hG, hg, hW⟩ := order_one hi hsg ho hw hγ hv1 hv2 hne
  have eg : d.sh.vG v2 OUT = gM := by rw [ev2]; exact hi.topo.vG_gV gM hgm IN
  have k2 : d.fl.gMeas (d.sh.vG v2 OUT) = true := by
    rw [hi.meas.g_flag _ (by rw [eg]; exact hgm)]
    exact ⟨hmG, eg⟩
  have k1 : d.fl.gMeas (d.sh.vG v1 OUT) = false := by
    have := hi.meas.g_flag _ (hi.topo.vG_mem v1 hv1 OUT)
    rw [← Bool.not_eq_true, this]
    rintro ⟨-, q⟩
    exact hg (q.trans eg.symm)
  have m3 := hi.topo.vW_mem v1 hv1
  have k3 : d.fl.wMeas (d.sh.vW v1) = false := by
    have := hi.meas.w_flag _ m3
    rw [← Bool.not_eq_true, this]
    simp [hmG]
  obtain ⟨d1, d1'⟩ := hi.dom v1 hv1
  obtain ⟨d2, d2'⟩ := hi.dom v2 hv2
  have hsp : ∀ s1 s2 : Spin, 0 ≤ 2 * pySpin s1 + pySpin s2 ∧ 2 * pySpin s1 + pySpin s2 < 4 := by decide
  have k4 : d.fl.wDelta (d.sh.vW v1) = false := by
    by_contra q
    rw [Bool.not_eq_false] at q
    apply hi.line.w_ne _ m3
    rw [e3, k3, q]
    split_ifs
    · rw [(hl.w_eq hPc d.ext (d.co.spin v1) (d.co.spin v2) d1 d1' d2').2.1]
      exact hw0 _ _ _ (hsp _ _).1 (hsp _ _).2 (hsp _ _).1 (hsp _ _).2 d1.2.2.2.2.1 d1.2.2.2.2.2
    · rw [(hl.w_eq hPc d.ext (d.co.spin v2) (d.co.spin v1) d1 d2' d1').2.1]
      exact hw0 _ _ _ (hsp _ _).1 (hsp _ _).2 (hsp _ _).1 (hsp _ _).2 d1.2.2.2.2.1 d1.2.2.2.2.2
  have hwf := hl.wf hPc (sp := 2) (by norm_num) (by norm_num) (-1)
  have hmap : s.map = ⟨P.beta, bins, [(P.lx : ℤ), (P.ly : ℤ)], P.nsub, 2, -1⟩ := by
    have a1 := hs.beta
    have a2 := hs.lat
    have a3 := hs.nsub
    have a4 := hs.sp
    cases hsm : s.map
    rw [hsm] at a1 a2 a3 a4 hb hsym
    simp only at a1 a2 a3 a4 hb hsym
    subst a1 a2 a3 a4 hb hsym
    rfl
  have hk : ∀ s : Spin, (⟨P.beta, bins, [(P.lx : ℤ), (P.ly : ℤ)], P.nsub, 2, -1⟩ : IndexMap Q).SpinOk (pySpin s) := fun s => C24_spin_indices.1 s
  have hin := (pyIndices_in hwf (hk (d.co.spin v1 IN)) (hk (d.co.spin v1 IN)) (siteOk_of d1) (siteOk_of d1) d1' d2').1
  have had := (C71_address hwf (hk (d.co.spin v1 IN)) (hk (d.co.spin v1 IN)) (siteOk_of d1) (siteOk_of d1) d1' d2').1
  simp only [pyIndices, pyCoordi_self, pyShape] at hin had
  rw [← et] at hin had
  have ht : 0 ≤ t ∧ t < bins := by
    rcases hin with _ | ⟨-, _ | ⟨-, _ | ⟨-, _ | ⟨-, _ | ⟨-, _ | ⟨q, -⟩⟩⟩⟩⟩⟩
    exact q
  have hs0 : ∀ s : Spin, 0 ≤ pySpin s ∧ pySpin s < 2 := by decide
  refine ⟨⟨hs0 _, ⟨d1.2.2.2.2.1, d1.2.2.2.2.2⟩, hs0 _, ⟨d1.2.2.2.2.1, d1.2.2.2.2.2⟩,
    ⟨le_rfl, by exact_mod_cast Nat.mul_pos hPc.lx_pos hPc.ly_pos⟩, ht⟩, ?_, ?_⟩
  · unfold sigmaCell
    rw [hmap, hl.gShape]
    simp only [← hgM, ← ev1, ← ev2, hr, p2]
    exact had
  · have ew : d.wt.wWt (d.sh.vW v1) = w.get [2 * pySpin (d.co.spin v1 IN) + pySpin (d.co.spin v1 OUT), (d.co.r v1).sub,
        2 * pySpin (d.co.spin v1 OUT) + pySpin (d.co.spin v1 IN), (d.co.r v1).sub, 0, t] := by
      rw [e3, k3, k4]
      split_ifs
      · rw [(hl.w_eq hPc d.ext (d.co.spin v1) (d.co.spin v2) d1 d1' d2').1, p1, p2, ← et]
      · rw [(hl.w_eq hPc d.ext (d.co.spin v2) (d.co.spin v1) d1 d2' d1').1, p1, p2, pyTau_reverse hPc.beta_pos hl.pos hoff, ← et]
        rw [hwe _ _ _ _ (hsp _ _).1 (hsp _ _).2 (hsp _ _).1 (hsp _ _).2 d1.2.2.2.2.1 d1.2.2.2.2.2 ht.1 ht.2]
    rw [hwt, e1, e2, ew, k1, k2, (hl.g_eq hPc d.ext _ _ d1 d1' d2').1, (hl.g_eq hPc d.ext _ _ d1 d2' d1').2]
    unfold sigmaSign fockTerm
    rw [hsym, ← hgM, ← ev1, ← ev2, ← et]
    split_ifs <;> push_cast <;> ring


/-- **C72**, self energy: a diagram of first order without worm and with a measured propagator is one of the diagrams of the self energy of the site it is on, in the cell where it is recorded; the
recorded value is (in phase, and in weight before reweighting) this diagram. It is assumed that the instantaneous interaction has no part within a site, and that the times are not exactly on the border
of a bin. -/
theorem C72_sigma_partial (hP : P₀.Wf) (hS : StartOk P₀) (h : Reach P₀ c) (hl : FromArrays c.P bins g w w0) (hw0 : NoOnsite c.P.nsub w0) (hwe : EndsAlike c.P.nsub bins w)
    {s : Measured Q F} (hs : s.Fits c.P 2) (hb : s.map.bins = bins) (hsym : s.map.sym = -1) (hm : MeasuresSigma c.d) (ho : c.d.order = 1)
    (hoff : OffBins c.P.beta bins (c.d.co.tau (c.d.sh.gV c.d.gMeasure OUT)) (c.d.co.tau (c.d.sh.gV c.d.gMeasure IN))) :
    ∃ (s1 s2 : Spin) (a t : ℤ), Element 2 c.P.nsub (c.P.lx * c.P.ly) bins (pySpin s1) a (pySpin s1) a 0 t ∧
      sigmaCell s c.d = .ok (ravel g.shape [pySpin s1, a, pySpin s1, a, 0, t]) ∧ (sigmaSign s c.d : F) * c.d.weight = fockTerm g w s1 s2 a t := by
  obtain ⟨h1, h2, h3⟩ := sigma_one (h.inv hP hS).1 (h.inv hP hS).2 (siteG_of hP hS h) hl hw0 hwe hs hb hsym hm ho hoff rfl rfl rfl
  exact ⟨_, _, _, _, h1, h2, h3⟩

/-- A diagram of first order with a measured interaction is the diagram of the polarisation. -/
theorem polar_one (hPc : P.Wf) (hi : Inv P d) (hsg : SiteGOk d) (hl : FromArrays P bins g w w0)
    {s : Measured Q F} (hs : s.Fits P 4) (hb : s.map.bins = bins) (hm : MeasuresPolar d) (ho : d.order = 1)
    (hoff : OffBins P.beta bins (d.co.tau (d.sh.wV d.wMeasure OUT)) (d.co.tau (d.sh.wV d.wMeasure IN))) {v1 v2 : ℕ} (ev1 : v1 = d.sh.wV d.wMeasure OUT)
    (ev2 : v2 = d.sh.wV d.wMeasure IN) {t : ℤ} (et : t = pyTauIndex P.beta bins (d.co.tau v1) (d.co.tau v2)) :
    Element 4 P.nsub (P.lx * P.ly) bins (2 * pySpin (d.co.spin v1 IN) + pySpin (d.co.spin v1 OUT)) (d.co.r v1).sub
        (2 * pySpin (d.co.spin v1 OUT) + pySpin (d.co.spin v1 IN)) (d.co.r v1).sub 0 t ∧
      polarCell s d = .ok (ravel w.shape [2 * pySpin (d.co.spin v1 IN) + pySpin (d.co.spin v1 OUT), (d.co.r v1).sub,
        2 * pySpin (d.co.spin v1 OUT) + pySpin (d.co.spin v1 IN), (d.co.r v1).sub, 0, t]) ∧
      -d.weight = bubbleTerm bins g (d.co.spin v1 IN) (d.co.spin v1 OUT) (d.co.r v1).sub t := by
  obtain ⟨hw, hmG, -, hγ⟩ := hm
  have hwm := hi.meas.w_mem hmG
  set wM := d.wMeasure with hwM
  rw [← ev1, ← ev2] at hoff
  have hv1 : v1 ∈ d.Ver.live := by rw [ev1]; exact hi.topo.wV_mem _ hwm OUT
  have hv2 : v2 ∈ d.Ver.live := by rw [ev2]; exact hi.topo.wV_mem _ hwm IN
  have hd1 : d.sh.vDir v1 = OUT := by rw [ev1]; exact hi.topo.vDir_wV wM hwm OUT
  have hne : v1 ≠ v2 := by
    intro e
    have := hi.topo.vDir_wV wM hwm IN
    rw [← ev2, ← e, hd1] at this
    exact absurd this (by decide)
  obtain ⟨hwt, hr, p1, p2, e1, e2, e3, hG, hg, hW⟩ := order_one hi hsg ho hw hγ hv1 hv2 hne
  have eg : d.sh.vW v1 = wM := by rw [ev1]; exact hi.topo.vW_wV wM hwm OUT
  have kg : ∀ x ∈ d.G.live, d.fl.gMeas x = false := by
    intro x hx
    rw [← Bool.not_eq_true, hi.meas.g_flag x hx]
    simp [hmG]
  have k1 := kg _ (hi.topo.vG_mem v1 hv1 OUT)
  have k2 := kg _ (hi.topo.vG_mem v2 hv2 OUT)
  have m3 := hi.topo.vW_mem v1 hv1
  have k3 : d.fl.wMeas (d.sh.vW v1) = true := by
    rw [hi.meas.w_flag _ m3]
    exact ⟨hmG, eg⟩
  have k4 : d.fl.wDelta (d.sh.vW v1) = false := by
    by_contra q
    rw [Bool.not_eq_false] at q
    have := (hi.delta _ m3 q).1
    rw [k3] at this
    cases this
  obtain ⟨d1, d1'⟩ := hi.dom v1 hv1
  obtain ⟨d2, d2'⟩ := hi.dom v2 hv2
  have hwf := hl.wf hPc (sp := 4) (by norm_num) (by norm_num) s.map.sym
  have hmap : s.map = ⟨P.beta, bins, [(P.lx : ℤ), (P.ly : ℤ)], P.nsub, 4, s.map.sym⟩ := by
    have a1 := hs.beta
    have a2 := hs.lat
    have a3 := hs.nsub
    have a4 := hs.sp
    cases hsm : s.map
    rw [hsm] at a1 a2 a3 a4 hb
    simp only at a1 a2 a3 a4 hb
    subst a1 a2 a3 a4 hb
    rfl
  have hsp : ∀ s1 s2 : Spin, 0 ≤ 2 * pySpin s1 + pySpin s2 ∧ 2 * pySpin s1 + pySpin s2 < 4 := by decide
  have hc : ∀ x : Dir → Spin, spinNum2 x = 2 * pySpin (x IN) + pySpin (x OUT) := fun x => by
    unfold spinNum2 spinNum pySpin
    ring
  have hk : ∀ s1 s2 : Spin, (⟨P.beta, bins, [(P.lx : ℤ), (P.ly : ℤ)], P.nsub, 4, s.map.sym⟩ : IndexMap Q).SpinOk (2 * pySpin s1 + pySpin s2) := hsp
  have hin := (pyIndices_in hwf (hk (d.co.spin v1 IN) (d.co.spin v1 OUT)) (hk (d.co.spin v1 OUT) (d.co.spin v1 IN)) (siteOk_of d1) (siteOk_of d1) d1' d2').1
  have had := (C71_address hwf (hk (d.co.spin v1 IN) (d.co.spin v1 OUT)) (hk (d.co.spin v1 OUT) (d.co.spin v1 IN)) (siteOk_of d1) (siteOk_of d1) d1' d2').1
  simp only [pyIndices, pyCoordi_self, pyShape] at hin had
  rw [← et] at hin had
  have ht : 0 ≤ t ∧ t < bins := by
    rcases hin with _ | ⟨-, _ | ⟨-, _ | ⟨-, _ | ⟨-, _ | ⟨-, _ | ⟨q, -⟩⟩⟩⟩⟩⟩
    exact q
  refine ⟨⟨hsp _ _, ⟨d1.2.2.2.2.1, d1.2.2.2.2.2⟩, hsp _ _, ⟨d1.2.2.2.2.1, d1.2.2.2.2.2⟩,
    ⟨le_rfl, by exact_mod_cast Nat.mul_pos hPc.lx_pos hPc.ly_pos⟩, ht⟩, ?_, ?_⟩
  · unfold polarCell
    rw [hmap, hl.wShape]
    simp only [← hwM, ← ev1, ← ev2, hr, hc, p1, p2]
    exact had
  · have ew : d.wt.wWt (d.sh.vW v1) = 1 := by
      rw [e3, k3, k4, hd1, if_neg (by decide)]
      exact (hl.w_eq hPc d.ext (d.co.spin v2) (d.co.spin v1) d1 d2' d1').2.2
    have hne' : d.co.tau v2 - d.co.tau v1 ≠ 0 := by simpa using hoff 0
    rw [hwt, e1, e2, ew, k1, k2, (hl.g_eq hPc d.ext _ _ d1 d1' d2').1, (hl.g_eq hPc d.ext _ _ d1 d2' d1').1, pyTau_reverse hPc.beta_pos hl.pos hoff, ← et]
    unfold bubbleTerm
    rcases lt_or_gt_of_ne hne' with q | q
    · rw [if_neg (by linarith), if_pos (by linarith)]
      ring
    · rw [if_pos (by linarith), if_neg (by linarith)]
      ring


/-- **C72**, polarisation: the same for a measured interaction. -/
theorem C72_polar (hP : P₀.Wf) (hS : StartOk P₀) (h : Reach P₀ c) (hl : FromArrays c.P bins g w w0)
    {s : Measured Q F} (hs : s.Fits c.P 4) (hb : s.map.bins = bins) (hm : MeasuresPolar c.d) (ho : c.d.order = 1)
    (hoff : OffBins c.P.beta bins (c.d.co.tau (c.d.sh.wV c.d.wMeasure OUT)) (c.d.co.tau (c.d.sh.wV c.d.wMeasure IN))) :
    ∃ (s1 s2 : Spin) (a t : ℤ), Element 4 c.P.nsub (c.P.lx * c.P.ly) bins (2 * pySpin s1 + pySpin s2) a (2 * pySpin s2 + pySpin s1) a 0 t ∧
      polarCell s c.d = .ok (ravel w.shape [2 * pySpin s1 + pySpin s2, a, 2 * pySpin s2 + pySpin s1, a, 0, t]) ∧ -c.d.weight = bubbleTerm bins g s1 s2 a t := by
  obtain ⟨h1, h2, h3⟩ := polar_one (h.inv hP hS).1 (h.inv hP hS).2 (siteG_of hP hS h) hl hs hb hm ho hoff rfl rfl rfl
  exact ⟨_, _, _, _, h1, h2, h3⟩

/-- Parameters with the tables that are read from arrays. -/
def Params.load (P : Params Q F) (bins : ℕ) (g w w0 : NArr F) : Params Q F :=
  { P with
    gSmoothT := fun s1 s2 a b t1 t2 => (if t2 > t1 then 1 else -1) * g.get (pyIndices [(P.lx : ℤ), (P.ly : ℤ)] P.beta bins (pySpin s1) (pySpin s2) a b t1 t2)
    gMeasT := fun _ _ _ _ _ _ => 1
    wMeasT := fun _ _ _ _ _ _ => 1
    wSmoothT := fun s1 s2 a b t1 t2 => w.get (pyIndices [(P.lx : ℤ), (P.ly : ℤ)] P.beta bins (pySpin2Index (pySpin (s1 IN)) (pySpin (s1 OUT)))
      (pySpin2Index (pySpin (s2 IN)) (pySpin (s2 OUT))) a b t1 t2)
    wDeltaT := fun s1 s2 a b => w0.get (pyIndices [(P.lx : ℤ), (P.ly : ℤ)] P.beta bins (pySpin2Index (pySpin (s1 IN)) (pySpin (s1 OUT)))
      (pySpin2Index (pySpin (s2 IN)) (pySpin (s2 OUT))) a b 0 0).dropLast }

/-- There is a simulation for all arrays of the right shapes. -/
theorem Params.load_spec (hP : P.Wf) (hn : 0 < bins) (hf : 16 * (P.nsub : ℤ) * P.nsub * (P.lx * P.ly) * bins < 4294967296)
    (hg : g.shape = pyShape 2 P.nsub [(P.lx : ℤ), (P.ly : ℤ)] bins true) (hw : w.shape = pyShape 4 P.nsub [(P.lx : ℤ), (P.ly : ℤ)] bins true)
    (hw0 : w0.shape = pyShape 4 P.nsub [(P.lx : ℤ), (P.ly : ℤ)] bins false) (hgc : g.isComplex = true) (hwc : w.isComplex = true) (hw0c : w0.isComplex = true) :
    FromArrays (P.load bins g w w0) bins g w w0 := by
  have hwf : ∀ (sp : ℤ), 0 < sp → sp ≤ 4 → ∀ sym, (⟨P.beta, bins, [(P.lx : ℤ), (P.ly : ℤ)], P.nsub, sp, sym⟩ : IndexMap Q).Wf := by
    intro sp h1 h2 sym
    have c := hP.nsub_pos
    refine ⟨hP.beta_pos, hn, ⟨by simp, ?_⟩, rfl, (by simpa using c), h1, ?_⟩
    · have a := hP.lx_pos
      have b := hP.ly_pos
      simp; omega
    · have e : latVol [(P.lx : ℤ), (P.ly : ℤ)] = P.lx * P.ly := by rw [latVol_prod]; simp
      simp only [e]
      have hz : (0 : ℤ) ≤ (P.nsub : ℤ) * P.nsub * (P.lx * P.ly) * bins := by positivity
      have : sp * sp ≤ 16 := by nlinarith
      calc sp * (P.nsub : ℤ) * sp * P.nsub * (P.lx * P.ly) * bins = sp * sp * ((P.nsub : ℤ) * P.nsub * (P.lx * P.ly) * bins) := by ring
        _ ≤ 16 * ((P.nsub : ℤ) * P.nsub * (P.lx * P.ly) * bins) := mul_le_mul_of_nonneg_right this hz
        _ < _ := by linarith
  refine ⟨hn, hf, hg, hw, hw0, hgc, hwc, hw0c, ?_, ?_⟩
  · let T₀ : GTab Q F := ⟨⟨P.beta, bins, [(P.lx : ℤ), (P.ly : ℤ)], P.nsub, 2, -1⟩, ⟨g.shape.prod, fun _ => 0⟩, ⟨g.shape.prod, fun _ => 1⟩, none⟩
    have hw' : T₀.map.Wf := hwf 2 (by norm_num) (by norm_num) _
    obtain ⟨T, e, hT⟩ := C71_G (T := T₀) hw' rfl rfl (by rw [← hg]) hg hgc
    refine ⟨T₀, T, rfl, rfl, rfl, fun _ => rfl, e, ?_⟩
    intro ext a b t1 t2 s1 s2 isMeas ha hb h1 h2
    have ha' : T₀.map.SiteOk a := siteOk_of ha
    have hb' : T₀.map.SiteOk b := siteOk_of hb
    cases isMeas
    · exact hT ext s1 s2 ha' hb' h1 h2
    · have hTm : T.meas = T₀.meas ∧ T.map = T₀.map := by
        unfold GTab.fromDict at e
        cases hx : T₀.smooth.fromDict T₀.map.smoothShape g with
        | ok x => rw [hx] at e; cases e; exact ⟨rfl, rfl⟩
        | abort => rw [hx] at e; cases e
        | ub => rw [hx] at e; cases e
      have hk : ∀ s : Spin, T₀.map.SpinOk (spinNum s) := fun s => C24_spin_indices.1 s
      have hi := (C71_address hw' (hk s1) (hk s2) ha' hb' h1 h2).1
      have hrg := ravel_range (pyIndices_in hw' (hk s1) (hk s2) ha' hb' h1 h2).1
      unfold GTab.weight0
      simp only [hTm.2, hi, Res.ok_bind, hTm.1, Arr.at, if_true]
      rw [if_pos (by rw [show T₀.meas.n = g.shape.prod from rfl, hg]; exact hrg)]
      rfl
  · let U₀ : WTab Q F := ⟨⟨P.beta, bins, [(P.lx : ℤ), (P.ly : ℤ)], P.nsub, 4, 1⟩, ⟨w.shape.prod, fun _ => 0⟩, ⟨w0.shape.prod, fun _ => 0⟩, ⟨w.shape.prod, fun _ => 1⟩, none⟩
    have hw' : U₀.map.Wf := hwf 4 (by norm_num) (by norm_num) _
    obtain ⟨U, e, hU⟩ := C71_W (T := U₀) hw' rfl (by rw [← hw]) (by rw [← hw0]) hw hw0 hwc hw0c
    refine ⟨U₀, U, rfl, rfl, rfl, rfl, fun _ => rfl, e, ?_⟩
    have key : ∀ ext a b t1 t2 s1 s2 isMeas isDelta, SiteIn P a → SiteIn P b → TauIn P t1 → TauIn P t2 →
        U.weight0 ext a b t1 t2 s1 s2 false isMeas isDelta false = .ok (wW0 (P.load bins g w w0) ext a b t1 t2 s1 s2 false isMeas isDelta false) := by
      intro ext a b t1 t2 s1 s2 isMeas isDelta ha hb h1 h2
      have ha' : U₀.map.SiteOk a := siteOk_of ha
      have hb' : U₀.map.SiteOk b := siteOk_of hb
      have hd := (hU ext s1 s2 ha' hb' h1 h2).2
      cases isDelta
      · cases isMeas
        · exact (hU ext s1 s2 ha' hb' h1 h2).1
        · have hTm : U.meas = U₀.meas ∧ U.map = U₀.map := by
            unfold WTab.fromDict at e
            cases hx : U₀.smooth.fromDict U₀.map.smoothShape w with
            | ok x =>
              cases hy : U₀.delta.fromDict U₀.map.deltaShape w0 with
              | ok y => simp only [hx, hy, Res.ok_bind] at e; cases e; exact ⟨rfl, rfl⟩
              | abort => simp [hx, hy] at e
              | ub => simp [hx, hy] at e
            | abort => simp [hx] at e
            | ub => simp [hx] at e
          have hk : ∀ s : Dir → Spin, U₀.map.SpinOk (spinNum2 s) := fun s => C24_spin_indices.2.2.1 s
          have hi := (C71_address hw' (hk s1) (hk s2) ha' hb' h1 h2).1
          have hrg := ravel_range (pyIndices_in hw' (hk s1) (hk s2) ha' hb' h1 h2).1
          unfold WTab.weight0
          simp only [hTm.2, hi, Res.ok_bind, hTm.1, Arr.at, if_true, Bool.false_eq_true, if_false]
          rw [if_pos (by rw [show U₀.meas.n = w.shape.prod from rfl, hw]; exact hrg)]
          rfl
      · cases isMeas <;> exact hd
    intro ext a b t1 t2 s1 s2 isWorm isMeas isDelta ha hb h1 h2
    cases isWorm
    · exact key ext a b t1 t2 s1 s2 isMeas isDelta ha hb h1 h2
    · exact key ext a b t1 t2 spinUpUp spinUpUp isMeas isDelta ha hb h1 h2

end

section
variable {F : Type} [Field F] {nsub vol bins : ℕ} {g w w0 : NArr F}

/-- **C72**, Python: without propagation between sites there is no self energy and no polarisation of first order between different sites, so the cells of the two theorems above are all. Other components are
zero in any case. -/
theorem C72_python_local (hg : LocalG nsub vol bins g) {s a s' b r t : ℤ} :
    (Element 2 nsub vol bins s a s' b r t → s ≠ s' ∨ a ≠ b ∨ r ≠ 0 → pySigmaFirst g w [s, a, s', b, r, t] = 0) ∧
      (Element 4 nsub vol bins s a s' b r t → (¬∃ s1 s2 : Spin, s = 2 * pySpin s1 + pySpin s2 ∧ s' = 2 * pySpin s2 + pySpin s1) ∨ a ≠ b ∨ r ≠ 0 →
        pyPolarFirst bins g [s, a, s', b, r, t] = 0) := by
  constructor
  · intro he h
    rw [pySigmaFirst_eq]
    split_ifs with q
    · have k : ∀ x : ℤ, 0 ≤ x → x < 2 → g.get [x, a, x, b, r, t] = 0 := fun x h1 h2 =>
        hg _ _ _ _ _ _ ⟨⟨h1, h2⟩, he.a, ⟨h1, h2⟩, he.b, he.r, he.t⟩ (by tauto)
      rw [k 0 (by norm_num) (by norm_num), k 1 (by norm_num) (by norm_num)]
      ring
    · rfl
  · intro he h
    by_cases q : ∃ s1 s2 : Spin, s = 2 * pySpin s1 + pySpin s2 ∧ s' = 2 * pySpin s2 + pySpin s1
    · obtain ⟨s1, s2, rfl, rfl⟩ := q
      have h' : a ≠ b ∨ r ≠ 0 := by
        rcases h with h | h
        · exact absurd ⟨s1, s2, rfl, rfl⟩ h
        · exact h
      have hs : 0 ≤ pySpin s2 ∧ pySpin s2 < 2 := (by decide : ∀ x : Spin, 0 ≤ pySpin x ∧ pySpin x < 2) s2
      rw [pyPolarFirst_eq, hg (pySpin s2) a (pySpin s2) b r t ⟨hs, he.a, hs, he.b, he.r, he.t⟩ (by tauto)]
      ring
    · simp only [pyPolarFirst, pySpinPairs, List.foldl_cons, List.foldl_nil, pySpin2Index]
      have k : ∀ x y : Spin, ¬(s = pySpin x * 2 + pySpin y ∧ s' = pySpin y * 2 + pySpin x) := by
        rintro x y ⟨h1, h2⟩
        exact q ⟨x, y, by linarith, by linarith⟩
      have k0 := k DOWN DOWN
      have k1 := k DOWN UP
      have k2 := k UP DOWN
      have k3 := k UP UP
      simp only [pySpin, if_true, Bool.false_eq_true, if_false] at k0 k1 k2 k3
      simp only [k0, k1, k2, k3, if_false]

/-- The value at the end of the interval of a linear function that is known in the middles of the bins. -/
theorem C72_extrapolation [CharZero F] (hn : bins ≠ 0) {i : List ℤ} {x y β : F} (h : ∀ t : ℤ, g.get (i ++ [t]) = x + y * ((t + 1 / 2) * (β / bins))) :
    pyLast bins g i = x + y * β := by
  unfold pyLast
  rw [h, h]
  have : (bins : F) ≠ 0 := by exact_mod_cast hn
  push_cast
  field_simp
  ring


/-- The instantaneous self energy of Python. -/
theorem pySigmaDelta_eq (s a s' b r : ℤ) : pySigmaDelta bins nsub vol g w0 [s, a, s', b, r] =
    if s = s' ∧ (s = 0 ∨ s = 1) then
      pyLast bins g [0, a, 0, b, r] * w0.get [2 * s, a, s, b, r] + pyLast bins g [1, a, 1, b, r] * w0.get [2 * s + 1, a, 2 + s, b, r] -
        if a = b ∧ r = 0 then ∑ x ∈ Finset.range nsub, ∑ r' ∈ Finset.range vol,
          (pyLast bins g [0, x, 0, x, 0] * w0.get [3 * s, a, 0, x, r'] + pyLast bins g [1, x, 1, x, 0] * w0.get [3 * s, a, 3, x, r']) else 0
    else 0 := by
  have hsum : ∀ f : ℕ → ℕ → F, ((List.range nsub).flatMap fun x => (List.range vol).map (f x)).sum = ∑ x ∈ Finset.range nsub, ∑ r' ∈ Finset.range vol, f x r' := by
    intro f
    have h1 : ∀ (n : ℕ) (f : ℕ → F), ((List.range n).map f).sum = ∑ x ∈ Finset.range n, f x := fun n f => by
      rw [Finset.sum_eq_multiset_sum, Finset.range_val, Multiset.range, Multiset.map_coe, Multiset.sum_coe]
    rw [List.flatMap, List.sum_flatten, List.map_map, h1]
    exact Finset.sum_congr rfl fun x _ => h1 vol (f x)
  simp only [pySigmaDelta, pyFockDelta, pySpinPairs, List.foldl_cons, List.foldl_nil, pySpin2Index, hsum]
  by_cases e : s = s'
  · subst e
    by_cases h0 : s = 0
    · subst h0
      by_cases q : a = b ∧ r = 0
      · simp [q.1, q.2, Finset.sum_add_distrib, sub_eq_add_neg, Finset.sum_neg_distrib]; ring
      · simp [q]
    by_cases h1 : s = 1
    · subst h1
      by_cases q : a = b ∧ r = 0
      · simp [q.1, q.2, Finset.sum_add_distrib, sub_eq_add_neg, Finset.sum_neg_distrib]; ring
      · simp [q]
    simp [h0, h1]
  · rw [if_neg (show ¬(s = s' ∧ (s = 0 ∨ s = 1)) from fun q => e q.1)]
    simp only [show ∀ x : ℤ, ¬(s = x ∧ s' = x) by omega, show ∀ x : ℤ, ¬(s = x ∧ s' = x ∧ a = b ∧ r = 0) by omega, if_false]


/-- **C72**, instantaneous self energy: for propagators that stay on a site and do not depend on the spin, and an interaction that changes its sign with the spin of one end and has no part within a site, both
its parts vanish or cancel: Python has no instantaneous self energy. -/
theorem C72_no_instantaneous (hb : 2 ≤ bins) (hg : LocalG nsub vol bins g) (hspin : ∀ a t : ℤ, 0 ≤ a → a < nsub → 0 ≤ t → t < bins → g.get [0, a, 0, a, 0, t] = g.get [1, a, 1, a, 0, t])
    (hw0 : NoOnsite nsub w0) (hsign : ∀ s a x r : ℤ, s = 0 ∨ s = 3 → 0 ≤ a → a < nsub → 0 ≤ x → x < nsub → 0 ≤ r → r < vol → w0.get [s, a, 3, x, r] = -w0.get [s, a, 0, x, r])
    {s a s' b r t : ℤ} (he : Element 2 nsub vol bins s a s' b r t) : pySigmaDelta bins nsub vol g w0 [s, a, s', b, r] = 0 := by
  rw [pySigmaDelta_eq]
  split_ifs with h1 h2
  · obtain ⟨-, h1⟩ := h1
    obtain ⟨rfl, rfl⟩ := h2
    have z : ∑ x ∈ Finset.range nsub, ∑ r' ∈ Finset.range vol,
          (pyLast bins g [0, x, 0, x, 0] * w0.get [3 * s, a, 0, x, r'] + pyLast bins g [1, x, 1, x, 0] * w0.get [3 * s, a, 3, x, r']) = 0 := by
      apply Finset.sum_eq_zero
      intro x hx
      apply Finset.sum_eq_zero
      intro r' hr'
      rw [Finset.mem_range] at hx hr'
      have hx' : (x : ℤ) < nsub := by exact_mod_cast hx
      have e : pyLast bins g [0, x, 0, x, 0] = pyLast bins g [1, x, 1, x, 0] := by
        simp only [pyLast, List.cons_append, List.nil_append]
        rw [hspin x _ (by omega) hx' (by omega) (by omega), hspin x _ (by omega) hx' (by omega) (by omega)]
      rw [e, hsign (3 * s) a x r' (by omega) he.a.1 he.a.2 (by omega) hx' (by omega) (by exact_mod_cast hr')]
      ring
    rw [z, hw0 (2 * s) s a (by omega) (by omega) (by omega) (by omega) he.a.1 he.a.2, hw0 (2 * s + 1) (2 + s) a (by omega) (by omega) (by omega) (by omega) he.a.1 he.a.2]
    ring
  · have k : ∀ x : ℤ, 0 ≤ x → x < 2 → pyLast bins g [x, a, x, b, r] = 0 := by
      intro x q1 q2
      simp only [pyLast, List.cons_append, List.nil_append]
      rw [hg _ _ _ _ _ _ ⟨⟨q1, q2⟩, he.a, ⟨q1, q2⟩, he.b, he.r, (by omega : (0 : ℤ) ≤ (bins : ℤ) - 1 ∧ (bins : ℤ) - 1 < bins)⟩ (by tauto),
        hg _ _ _ _ _ _ ⟨⟨q1, q2⟩, he.a, ⟨q1, q2⟩, he.b, he.r, (by omega : (0 : ℤ) ≤ (bins : ℤ) - 2 ∧ (bins : ℤ) - 2 < bins)⟩ (by tauto)]
      ring
    rw [k 0 (by norm_num) (by norm_num), k 1 (by norm_num) (by norm_num)]
    ring
  · rfl

end

/-! A simulation on a 2 by 2 lattice with arrays for two time bins: propagators stay on a site, the smooth interaction does not depend on the spins, the instantaneous one acts between different sites. -/

/-- Propagator `[s, 0, s, 0, 0, t] = 2 + t + s`. -/
def firstG : NArr ℚ := ⟨[2, 1, 2, 1, 4, 2], true, fun i => if i = 0 then 2 else if i = 1 then 3 else if i = 24 then 3 else if i = 25 then 4 else 0⟩
/-- Smooth interaction: 5 at all arguments. -/
def firstW : NArr ℚ := ⟨[4, 1, 4, 1, 4, 2], true, fun _ => 5⟩
/-- Instantaneous interaction: 7 between different sites, with the opposite sign for opposite spins. -/
def firstW0 : NArr ℚ := ⟨[4, 1, 4, 1, 4], true, fun i => if i % 4 = 0 then 0 else if i / 4 % 4 = 3 then -7 else 7⟩
/-- The simulation with these arrays. -/
def firstP : Params ℚ ℚ := demoP.load 2 firstG firstW firstW0

theorem firstP_wf : firstP.Wf := by constructor <;> simp [firstP, Params.load, demoP, normWeight]
theorem firstP_start : StartOk firstP := by
  constructor <;> first | decide +kernel | (simp [firstP, Params.load, demoP, SiteIn, startSite])
theorem firstP_arrays : FromArrays firstP 2 firstG firstW firstW0 :=
  Params.load_spec demoP_wf (by decide) (by simp [demoP]) rfl rfl rfl rfl rfl rfl

theorem hops_P {os : List Words} : ∀ {c c' : Chain ℚ ℚ}, hop c os = .ok c' → c'.P = c.P := by
  induction os with
  | nil => intro c c' e; cases e; rfl
  | cons o os ih =>
    intro c c' e
    simp only [hop] at e
    obtain ⟨c1, e1, e2⟩ := bind_eq_ok e
    rw [ih e2, hopOne_P e1]

/-- A run whose final state passes a test reaches such a state, with unchanged parameters. -/
theorem demo_reach_P {P : Params ℚ ℚ} (os : List Words) (f : Chain ℚ ℚ → Bool) (h : (demoRun P os).test f = true) : ∃ c, Reach P c ∧ c.P = P ∧ f c = true := by
  obtain ⟨c, e, hc⟩ := Res.test_ok h
  refine ⟨c, demoRun_reach e, ?_, hc⟩
  obtain ⟨c0, e0, e3⟩ := bind_eq_ok e
  rw [hops_P e3]
  obtain ⟨d, -, e4⟩ := bind_eq_ok e0
  cases e4; rfl

theorem offBins_quarter : OffBins (1 : ℚ) 2 (1 / 2) (1 / 4) ∧ OffBins (1 : ℚ) 2 (1 / 4) (1 / 2) := by
  constructor <;> intro k e
  · have e' : (2 : ℚ) * k = -1 := by push_cast at e; linarith
    norm_cast at e'
    omega
  · have e' : (2 : ℚ) * k = 1 := by push_cast at e; linarith
    norm_cast at e'
    omega

theorem firstMeasured_fits {sp : ℤ} (h : sp = 2 ∨ sp = 4) {P : Params ℚ ℚ} (h1 : P.beta = 1) (h2 : P.lx = 2) (h3 : P.ly = 2) (h4 : P.nsub = 1) (h5 : P.maxOrd = 3) : (demoMeasured sp).Fits P sp := by
  have := demoMeasured_fits h
  refine ⟨this.map, ?_, ?_, ?_, this.sp, ?_⟩
  · rw [h1]; exact this.beta
  · rw [h2, h3]; exact this.lat
  · rw [h4]; exact this.nsub
  · rw [h5]; exact this.est

/-- All assumptions on the self energy are met by a state of this simulation, of weight -15; here the propagator is `firstG[0, 0, 0, 0, 0, 1]` or `firstG[1, 0, 1, 0, 0, 0]`. -/
example : ∃ c, Reach firstP c ∧ c.P = firstP ∧ firstP.Wf ∧ StartOk firstP ∧ FromArrays c.P 2 firstG firstW firstW0 ∧ NoOnsite c.P.nsub firstW0 ∧ EndsAlike c.P.nsub 2 firstW ∧
    (demoMeasured 2).Fits c.P 2 ∧ MeasuresSigma c.d ∧ c.d.order = 1 ∧
    OffBins c.P.beta 2 (c.d.co.tau (c.d.sh.gV c.d.gMeasure OUT)) (c.d.co.tau (c.d.sh.gV c.d.gMeasure IN)) ∧ (sigmaSign (demoMeasured 2) c.d : ℚ) * c.d.weight = -15 := by
  obtain ⟨c, h, hp, hf⟩ := demo_reach_P (P := firstP) [goZero, goOne] (fun c => decide (MeasuresSigma c.d) && c.d.order == 1 &&
    decide ((c.d.co.tau (c.d.sh.gV c.d.gMeasure OUT) = 1 / 2 ∧ c.d.co.tau (c.d.sh.gV c.d.gMeasure IN) = 1 / 4) ∨
      (c.d.co.tau (c.d.sh.gV c.d.gMeasure OUT) = 1 / 4 ∧ c.d.co.tau (c.d.sh.gV c.d.gMeasure IN) = 1 / 2)) &&
    decide ((sigmaSign (demoMeasured 2) c.d : ℚ) * c.d.weight = -15)) (by decide +kernel)
  simp only [Bool.and_eq_true, decide_eq_true_eq, beq_iff_eq] at hf
  refine ⟨c, h, hp, firstP_wf, firstP_start, hp ▸ firstP_arrays, ?_, ?_, ?_, hf.1.1.1, hf.1.1.2, ?_, hf.2⟩
  · rw [hp]
    intro s s' a h1 h2 h3 h4 h5 h6
    have h6 : a < 1 := h6
    have : a = 0 := by omega
    subst this
    have e : ravel [4, 1, 4, 1, 4] [s, 0, s', 0, 0] = 4 * (4 * s + s') := by simp [ravel]; ring
    simp only [NArr.get, firstW0, e]
    rw [if_pos (by omega)]
  · intro s s' a t _ _ _ _ _ _ _ _
    rfl
  · rw [hp]; exact firstMeasured_fits (.inl rfl) rfl rfl rfl rfl rfl
  · rw [hp, show firstP.beta = 1 from rfl]
    rcases hf.1.2 with ⟨e1, e2⟩ | ⟨e1, e2⟩ <;> rw [e1, e2]
    · exact offBins_quarter.1
    · exact offBins_quarter.2

/-- The same for the polarisation, which is minus a product of two elements of the propagator. -/
example : ∃ c, Reach firstP c ∧ c.P = firstP ∧ FromArrays c.P 2 firstG firstW firstW0 ∧ (demoMeasured 4).Fits c.P 4 ∧ MeasuresPolar c.d ∧ c.d.order = 1 ∧
    OffBins c.P.beta 2 (c.d.co.tau (c.d.sh.wV c.d.wMeasure OUT)) (c.d.co.tau (c.d.sh.wV c.d.wMeasure IN)) ∧ -c.d.weight = -6 := by
  obtain ⟨c, h, hp, hf⟩ := demo_reach_P (P := firstP) [hopWords 19 12 [0, zeroWord], goZero, goOne] (fun c => decide (MeasuresPolar c.d) && c.d.order == 1 &&
    decide ((c.d.co.tau (c.d.sh.wV c.d.wMeasure OUT) = 1 / 2 ∧ c.d.co.tau (c.d.sh.wV c.d.wMeasure IN) = 1 / 4) ∨
      (c.d.co.tau (c.d.sh.wV c.d.wMeasure OUT) = 1 / 4 ∧ c.d.co.tau (c.d.sh.wV c.d.wMeasure IN) = 1 / 2)) &&
    decide (-c.d.weight = -6)) (by decide +kernel)
  simp only [Bool.and_eq_true, decide_eq_true_eq, beq_iff_eq] at hf
  refine ⟨c, h, hp, hp ▸ firstP_arrays, ?_, hf.1.1.1, hf.1.1.2, ?_, hf.2⟩
  · rw [hp]; exact firstMeasured_fits (.inr rfl) rfl rfl rfl rfl rfl
  · rw [hp, show firstP.beta = 1 from rfl]
    rcases hf.1.2 with ⟨e1, e2⟩ | ⟨e1, e2⟩ <;> rw [e1, e2]
    · exact offBins_quarter.1
    · exact offBins_quarter.2

/-- The values of Python for the same arrays. -/
example : pySigmaFirst firstG firstW [0, 0, 0, 0, 0, 1] = -35 ∧ pySigmaFirst firstG firstW [0, 0, 1, 0, 0, 1] = 0 ∧ pyPolarFirst 2 firstG [0, 0, 0, 0, 0, 1] = -6 ∧
    pyPolarFirst 2 firstG [1, 0, 2, 0, 0, 1] = -8 := by
  decide +kernel

/-- The assumptions on the instantaneous self energy. -/
example : LocalG 1 4 2 firstG ∧ (∀ s a x r : ℤ, s = 0 ∨ s = 3 → 0 ≤ a → a < (1 : ℕ) → 0 ≤ x → x < (1 : ℕ) → 0 ≤ r → r < (4 : ℕ) → firstW0.get [s, a, 3, x, r] = -firstW0.get [s, a, 0, x, r]) ∧
    firstW0.get [3, 0, 0, 0, 2] = 7 := by
  refine ⟨?_, ?_, by decide +kernel⟩
  · rintro s a s' b r t ⟨h1, h2, h3, h4, h5, h6⟩ h
    push_cast at h1 h2 h3 h4 h5 h6
    have e : ravel [2, 1, 2, 1, 4, 2] [s, a, s', b, r, t] = 16 * s + 16 * a + 8 * s' + 8 * b + 2 * r + t := by simp [ravel]; ring
    have ha : a = 0 := by omega
    have hb : b = 0 := by omega
    subst ha hb
    simp only [NArr.get, firstG, e]
    rw [if_neg (by omega), if_neg (by omega), if_neg (by omega), if_neg (by omega)]
  · intro s a x r hs h1 h2 h3 h4 h5 h6
    have ha : a = 0 := by omega
    have hx : x = 0 := by omega
    have hr : r = 0 ∨ r = 1 ∨ r = 2 ∨ r = 3 := by omega
    subst ha hx
    rcases hs with rfl | rfl <;> rcases hr with rfl | rfl | rfl | rfl <;> decide +kernel

/-- The arrays above with an instantaneous interaction within a site, as in the Hubbard model. -/
def onsiteW0 : NArr ℚ := ⟨[4, 1, 4, 1, 4], true, fun i => if i % 4 = 0 then 11 else 7⟩
/-- The simulation with these arrays. -/
def onsiteP : Params ℚ ℚ := demoP.load 2 firstG firstW onsiteW0

/-- **C72** fails with an instantaneous interaction within a site: it is sampled at first order too and recorded in the smooth self energy, although Python has it in the instantaneous self energy already. The
recorded value is not one of the diagrams of the smooth self energy. -/
theorem C72_refuted_onsite : ∃ c, Reach onsiteP c ∧ c.P = onsiteP ∧ onsiteP.Wf ∧ StartOk onsiteP ∧ FromArrays c.P 2 firstG firstW onsiteW0 ∧ EndsAlike c.P.nsub 2 firstW ∧
    (demoMeasured 2).Fits c.P 2 ∧ MeasuresSigma c.d ∧ c.d.order = 1 ∧
    OffBins c.P.beta 2 (c.d.co.tau (c.d.sh.gV c.d.gMeasure OUT)) (c.d.co.tau (c.d.sh.gV c.d.gMeasure IN)) ∧
    (∃ wl ∈ c.d.W.live, c.d.fl.wDelta wl = true ∧ c.d.wt.wWt wl = 11) ∧
    (sigmaSign (demoMeasured 2) c.d : ℚ) * c.d.weight = -22 ∧ (∀ s1 s2 t, 0 ≤ t → t < 2 → fockTerm firstG firstW s1 s2 0 t ≠ -22) := by
  obtain ⟨c, h, hp, hf⟩ := demo_reach_P (P := onsiteP) [mkWorm 0 5, addDel 9 1, rmWorm, mkWorm 1 30, delInt 0, rmWorm, goZero, goOne] (fun c =>
    decide (MeasuresSigma c.d) && c.d.order == 1 &&
    decide ((c.d.co.tau (c.d.sh.gV c.d.gMeasure OUT) = 1 / 2 ∧ c.d.co.tau (c.d.sh.gV c.d.gMeasure IN) = 1 / 4) ∨
      (c.d.co.tau (c.d.sh.gV c.d.gMeasure OUT) = 1 / 4 ∧ c.d.co.tau (c.d.sh.gV c.d.gMeasure IN) = 1 / 2)) &&
    decide (1 ∈ c.d.W.live ∧ c.d.fl.wDelta 1 = true ∧ c.d.wt.wWt 1 = 11) &&
    decide ((sigmaSign (demoMeasured 2) c.d : ℚ) * c.d.weight = -22)) (by decide +kernel)
  simp only [Bool.and_eq_true, decide_eq_true_eq, beq_iff_eq] at hf
  refine ⟨c, h, hp, ?_, ?_, ?_, ?_, ?_, hf.1.1.1.1, hf.1.1.1.2, ?_, ⟨1, hf.1.2⟩, hf.2, ?_⟩
  · constructor <;> simp [onsiteP, Params.load, demoP, normWeight]
  · constructor <;> first | decide +kernel | (simp [onsiteP, Params.load, demoP, SiteIn, startSite])
  · rw [hp]; exact Params.load_spec demoP_wf (by decide) (by simp [demoP]) rfl rfl rfl rfl rfl rfl
  · intro s s' a t _ _ _ _ _ _ _ _
    rfl
  · rw [hp]; exact firstMeasured_fits (.inl rfl) rfl rfl rfl rfl rfl
  · rw [hp, show onsiteP.beta = 1 from rfl]
    rcases hf.1.1.2 with ⟨e1, e2⟩ | ⟨e1, e2⟩ <;> rw [e1, e2]
    · exact offBins_quarter.1
    · exact offBins_quarter.2
  · intro s1 s2 t h1 h2
    have : t = 0 ∨ t = 1 := by omega
    rcases this with rfl | rfl <;> cases s1 <;> cases s2 <;> decide +kernel

/-- **C72** fails for propagators between sites: Python multiplies the propagator from a site to another with the propagator in the same direction, not with the one back. On a ring of three sites the place
1 has the index 1 seen from the place 0, and the place 0 has the index 2 seen from the place 1. -/
theorem C72_refuted_polar : let g : NArr ℚ := ⟨[2, 1, 2, 1, 3, 1], true, fun i => if i = 1 then 2 else if i = 2 then 5 else 1⟩
    pyCoordiIndex [3, 1] (relCoord [3, 1] ⟨0, 0, 0⟩ ⟨0, 1, 0⟩) = 1 ∧ pyCoordiIndex [3, 1] (relCoord [3, 1] ⟨0, 1, 0⟩ ⟨0, 0, 0⟩) = 2 ∧
      pyPolarFirst 1 g [0, 0, 0, 0, 1, 0] = -(g.get [0, 0, 0, 0, 1, 0] * g.get [0, 0, 0, 0, 1, 0]) ∧
      pyPolarFirst 1 g [0, 0, 0, 0, 1, 0] ≠ -(g.get [0, 0, 0, 0, 2, 0] * g.get [0, 0, 0, 0, 1, 0]) := by
  decide +kernel

end Feyn
