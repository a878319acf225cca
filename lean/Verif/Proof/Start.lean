import Verif.Proof.Main
import Verif.Spec.Run
import Mathlib.Tactic.IntervalCases

/-! The freshly built diagram is consistent. -/

namespace Feyn

set_option linter.unusedSectionVars false
set_option linter.unusedSimpArgs false

section
variable {Q F : Type} [Field Q] [LinearOrder Q] [IsStrictOrderedRing Q] [Field F]

/-- The bundle holding cells `0 .. n-1` under their own names. -/
def Bundle.ofSize (n : ℕ) : Bundle := ⟨id, id, n⟩

theorem Bundle.ofSize_wf {n : ℕ} (h : n ≤ 20) : (Bundle.ofSize n).Wf :=
  ⟨h, fun _ h => h, fun _ h => h, fun _ _ => rfl, fun _ _ => rfl⟩

theorem Bundle.ofSize_live {n : ℕ} (h : n ≤ 20) : (Bundle.ofSize n).live = Finset.range n := by
  ext x
  simp only [Bundle.mem_live, Bundle.ofSize, Finset.mem_range, id]
  omega

theorem upd_id (a : ℕ) : upd id a a = id := by
  funext x; simp only [upd]; split <;> simp_all

/-- Facts about the built diagram. -/
structure Started (P : Params Q F) (d : Diag Q F) : Prop where
  order : d.order = 1
  ver : d.Ver = Bundle.ofSize 2
  g : d.G = Bundle.ofSize 2
  w : d.W = Bundle.ofSize 1
  vG : ∀ v < 2, ∀ e, d.sh.vG v e = if (v = 0) = (e = OUT) then 0 else 1
  gV : ∀ g < 2, ∀ e, d.sh.gV g e = if (g = 0) = (e = OUT) then 1 else 0
  wV : ∀ e, d.sh.wV 0 e = if e = OUT then 1 else 0
  vW : ∀ v < 2, d.sh.vW v = 0
  vDir0 : d.sh.vDir 0 = IN
  vDir1 : d.sh.vDir 1 = OUT
  gK0 : d.mo.gK 0 = 1
  gK1 : d.mo.gK 1 = 2
  wK : d.mo.wK 0 = 1
  gHash : ∀ k, d.mo.gHash k = true ↔ k = 1 ∨ k = 2
  wHash : ∀ k, d.mo.wHash k = true ↔ k = 1
  r : ∀ v < 2, d.co.r v = startSite
  tau : ∀ v < 2, d.co.tau v = 0
  spin : ∀ v < 2, d.co.spin v = spinUpUp
  gMeas0 : d.fl.gMeas 0 = true
  gMeas1 : d.fl.gMeas 1 = false
  gGam : ∀ g < 2, d.fl.gGam g = false
  wMeas : d.fl.wMeas 0 = false
  wWorm : d.fl.wWorm 0 = false
  wDelta : d.fl.wDelta 0 = false
  wGam : d.fl.wGam 0 = false
  gWt0 : d.wt.gWt 0 = P.gMeasT UP UP startSite startSite 0 0
  gWt1 : d.wt.gWt 1 = P.gSmoothT UP UP startSite startSite 0 0
  wWt : d.wt.wWt 0 = P.wSmoothT spinUpUp spinUpUp startSite startSite 0 0
  worm : d.worm.exist = false
  ira : d.worm.ira = NULL
  masha : d.worm.masha = NULL
  measG : d.measG = true
  gMeasure : d.gMeasure = 0
  hasGamma : d.hasGamma = 0
  sfl : d.sfl = 1
  weight : d.weight = d.wt.gWt 0 * d.wt.gWt 1 * d.wt.wWt 0 * (-1)
  phase : d.phase = P.ph d.weight

theorem buildNew_started {P : Params Q F} {d : Diag Q F} (h : d.Fresh) :
    ∃ d', buildNew P d = .ok d' ∧ Started P d' := by
  obtain ⟨h1,h2,h3,h4,h5,h6,h7,h8⟩ := h
  obtain ⟨o, ph, w, sfl, G, W, V, sh, co, mo, fl, wt, wo, mg, gm, wm, hg, ext, vi, vo⟩ := d
  dsimp only at *
  subst h1 h2 h3 h4 h5
  have hsp : (fun e : Bool => if e = OUT then UP else UP) = spinUpUp := by
    funext e; simp [spinUpUp]
  simp only [buildNew, loadDiagram, newDict]
  rw [show fixDiagram P _ = .ok _ from by
    simp [fixDiagram, fixLines, Bundle.init, loopM, h6]
    rfl]
  simp only [Res.ok_bind, fromDict]
  simp [Bundle.init, loopM, clearDiagram, clearBundle, verFromDict, Bundle.add, hsp]
  simp [wFromDict, Bundle.add, Bundle.get, addWHash, upd, absK, upd2]
  simp [gFromDict, Bundle.add, Bundle.get, addGHash, indexK, upd, upd2, wormFromDict]
  simp [fixDiagram, fixLines, List.range_succ, loopM, fixG, Bundle.get, deref, upd, upd2]
  simp [fixW, Bundle.get, deref, upd, upd2, h7, h8]
  constructor
  case vG => intro v hv e; interval_cases v <;> cases e <;> simp [upd, upd2]
  case gV => intro v hv e; interval_cases v <;> cases e <;> simp [upd, upd2]
  case wV => intro e; cases e <;> simp [upd, upd2]
  case vW => intro v hv; interval_cases v <;> simp [upd, upd2]
  case r => intro v hv; interval_cases v <;> simp [upd, startSite]
  case tau => intro v hv; interval_cases v <;> simp [upd, upd2]
  case spin => intro v hv; interval_cases v <;> simp [upd, upd2] <;> rfl
  case gGam => intro v hv; interval_cases v <;> simp [upd, upd2]
  case gHash => intro k; by_cases a : k = 1 <;> by_cases b : k = 2 <;> simp [a, b, upd]
  case wHash => intro k; by_cases a : k = 1 <;> simp [a, upd]
  all_goals simp [upd, upd2, gW0, wW0, startSite, spinUpUp]
  all_goals try rfl
  all_goals simp only [upd_id]; rfl

theorem ext_two {p : ℕ → Prop} : (∀ v ∈ Finset.range 2, p v) ↔ p 0 ∧ p 1 := by
  constructor
  · intro h; exact ⟨h 0 (by simp), h 1 (by simp)⟩
  · rintro ⟨h0, h1⟩ v hv
    rw [Finset.mem_range] at hv
    interval_cases v <;> assumption

theorem Started.inv {P : Params Q F} (hP : P.Wf) (hS : StartOk P) {d : Diag Q F} (h : Started P d) : Inv P d := by
  have lv : d.Ver.live = Finset.range 2 := by rw [h.ver, Bundle.ofSize_live (by norm_num)]
  have lg : d.G.live = Finset.range 2 := by rw [h.g, Bundle.ofSize_live (by norm_num)]
  have lw : d.W.live = {0} := by rw [h.w, Bundle.ofSize_live (by norm_num)]; rfl
  have av : d.Ver.avail = 2 := by rw [h.ver]; rfl
  have ag : d.G.avail = 2 := by rw [h.g]; rfl
  have aw : d.W.avail = 1 := by rw [h.w]; rfl
  have v0 := h.vG 0 (by norm_num)
  have v1 := h.vG 1 (by norm_num)
  have g0 := h.gV 0 (by norm_num)
  have g1 := h.gV 1 (by norm_num)
  have w0 := h.vW 0 (by norm_num)
  have w1 := h.vW 1 (by norm_num)
  have wV := h.wV
  have d0 := h.vDir0
  have d1 := h.vDir1
  have r0 := h.r 0 (by norm_num)
  have r1 := h.r 1 (by norm_num)
  have t0 := h.tau 0 (by norm_num)
  have t1 := h.tau 1 (by norm_num)
  have s0 := h.spin 0 (by norm_num)
  have s1 := h.spin 1 (by norm_num)
  have e0 := h.gGam 0 (by norm_num)
  have e1 := h.gGam 1 (by norm_num)
  have k0 := h.gK0
  have k1 := h.gK1
  have kw := h.wK
  have m0 := h.gMeas0
  have m1 := h.gMeas1
  have ww := h.worm
  constructor
  case count =>
    constructor
    · rw [h.ver]; exact Bundle.ofSize_wf (by norm_num)
    · rw [h.g]; exact Bundle.ofSize_wf (by norm_num)
    · rw [h.w]; exact Bundle.ofSize_wf (by norm_num)
    · omega
    · have := hP.one_le; omega
    · omega
    · omega
    · left; rw [h.order, aw]
  case topo =>
    rw [lv, lg, lw]
    constructor
    all_goals first | rw [ext_two] | (intro w hw; rw [Finset.mem_singleton] at hw; subst hw)
    all_goals simp [v0, v1, g0, g1, w0, w1, d0, d1, wV]
  case kcons =>
    rw [lv, ext_two]
    simp [KConserved, v0, v1, g0, g1, w0, w1, d0, d1, k0, k1, kw, ww]
  case ghash =>
    rw [lg]
    constructor
    · rw [ext_two]; simp [InK, k0, k1]
    · rw [ext_two]; constructor <;> rw [ext_two] <;> simp [k0, k1]
    · intro k; rw [h.gHash]
      constructor
      · rintro (rfl | rfl)
        · exact ⟨0, by simp, k0⟩
        · exact ⟨1, by simp, k1⟩
      · rintro ⟨g, hg, rfl⟩
        rw [Finset.mem_range] at hg
        interval_cases g <;> simp [k0, k1]
  case whash =>
    rw [lw]
    constructor
    · simp [InK, kw]
    · simp [kw]
    · simp
    · intro k; rw [h.wHash]; simp [kw, eq_comm]
  case spin =>
    intro g hg; rw [lg, Finset.mem_range] at hg
    interval_cases g <;> simp [g0, g1, s0, s1, spinUpUp]
  case worm =>
    constructor <;> simp [ww, lw, h.wWorm]
  case meas =>
    rw [lg, lw, h.measG, h.gMeasure]
    constructor
    · simp
    · simp
    · rw [ext_two]; simp [m0, m1]
    · simp [h.wMeas]
  case delta => simp [DeltaOk, lw, h.wDelta]
  case gamma =>
    rw [lg, lw, h.hasGamma]
    constructor
    · simp
    · rw [ext_two]; simp [e0, e1]
    · simp [h.wGam]
    · simp
    · simp
    · rw [ext_two]; simp [e0, e1]
    · simp [h.wGam]
  case dom =>
    have ht : TauIn P (0 : Q) := ⟨le_refl _, hP.beta_pos⟩
    intro v hv; rw [lv, Finset.mem_range] at hv
    interval_cases v
    · rw [r0, t0]; exact ⟨hS.site, ht⟩
    · rw [r1, t1]; exact ⟨hS.site, ht⟩
  case ext => intro q; exact absurd h.hasGamma q
  case line =>
    rw [lg, lw]
    constructor
    · rw [ext_two]
      simp [gExpected, gW0, g0, g1, r0, r1, t0, t1, s0, s1, m0, m1, e0, e1, h.gWt0, h.gWt1, spinUpUp]
    · simp [wExpected, wW0, wV, r0, r1, t0, t1, s0, s1, h.wWorm, h.wMeas, h.wDelta, h.wGam, h.wWt]
    · rw [ext_two, h.gWt0, h.gWt1]; exact ⟨hS.gMeas, hS.gSmooth⟩
    · simp [h.wWt, hS.wSmooth]
  case weight =>
    rw [h.weight, h.order, lg, lw, aw, h.sfl, if_neg one_ne_zero]
    simp [totalWeight, Finset.prod_range_succ]
  case phase => exact h.phase
  case sign =>
    rw [lv, h.sfl]
    refine ⟨Equiv.swap 0 1, ?_, ?_⟩
    · intro v
      constructor
      · intro hv
        rw [Finset.mem_range] at hv
        have : v = 0 ∨ v = 1 := by
          rcases v with ⟨v, hv'⟩; simp only at hv
          interval_cases v
          · left; rfl
          · right; rfl
        rcases this with rfl | rfl
        · simp [nextVertex, v0, g0]
        · simp [nextVertex, v1, g1]
      · intro hv
        rw [Finset.mem_range] at hv
        refine Equiv.swap_apply_of_ne_of_ne ?_ ?_
        · rintro rfl; simp at hv
        · rintro rfl; simp at hv
    · rw [Equiv.Perm.sign_swap (by decide)]; rfl

theorem buildNew_inv {P : Params Q F} (hP : P.Wf) (hS : StartOk P) {d : Diag Q F} (h : d.Fresh) :
    ∃ d', buildNew P d = .ok d' ∧ Inv P d' ∧ d'.order = 1 := by
  obtain ⟨d', e, hs⟩ := buildNew_started (P := P) h
  exact ⟨d', e, hs.inv hP hS, hs.order⟩
end
end Feyn
