import Verif.Proof.UnbSum
import Verif.Proof.UnbOff
import Verif.Proof.UnbShare
import Verif.Props.First

/-! The sum over the diagrams of first order. -/

namespace Feyn

set_option linter.unusedSectionVars false

section
variable {Q F : Type} [Field Q] [LinearOrder Q] [IsStrictOrderedRing Q] [Field F] [Algebra Q F]
variable {P : Params Q F} {d d' z x : Diag Q F}

theorem zero_facts (hi : Inv P z) (h0 : z.order = 0) : z.W.avail = 1 ∧ z.worm.exist = false ∧ z.hasGamma = 0 := by
  have := hi.count.n_pos
  rcases hi.count.order with q | q
  · omega
  · exact q.2

theorem two_vertices (hi : Inv P z) (hn : z.W.avail = 1) {v1 v2 : ℕ} (hv1 : v1 ∈ z.Ver.live) (hv2 : v2 ∈ z.Ver.live) (hne : v1 ≠ v2) : z.Ver.live = {v1, v2} := by
  have hc := Bundle.card_live hi.count.verWf
  have := hi.count.ver
  rw [hn] at this
  symm
  apply Finset.eq_of_subset_of_card_le
  · intro x hx
    simp only [Finset.mem_insert, Finset.mem_singleton] at hx
    rcases hx with rfl | rfl <;> assumption
  · rw [hc, this, Finset.card_pair hne]

/-- The coordinates after a jump, seen from two given vertices. -/
def turned (b : Bool) (c : Site × Q × Q × Bool × Bool) : Site × Q × Q × Bool × Bool := if b then c else (c.1, c.2.2.1, c.2.1, c.2.2.2.2, c.2.2.2.1)

theorem turned_turned (b : Bool) (c : Site × Q × Q × Bool × Bool) : turned b (turned b c) = c := by cases b <;> rfl

theorem turned_mem (b : Bool) {c : Site × Q × Q × Bool × Bool} (h : c ∈ jumps P) : turned b c ∈ jumps P := by
  cases b
  · simp only [jumps, turned, Finset.mem_product] at h ⊢
    exact ⟨h.1, h.2.2.1, h.2.1, h.2.2.2.2, h.2.2.2.1⟩
  · exact h

theorem turned_sum {M : Type} [AddCommMonoid M] (b : Bool) (f : Site × Q × Q × Bool × Bool → M) : ∑ c ∈ jumps P, f (turned b c) = ∑ c ∈ jumps P, f c :=
  Finset.sum_nbij' (turned b) (turned b) (fun _ h => turned_mem b h) (fun _ h => turned_mem b h) (fun _ _ => turned_turned b _) (fun _ _ => turned_turned b _) fun _ _ => rfl

/-- The diagram after a jump, before weights are computed. -/
def landed (z : Diag Q F) (c : Site × Q × Q × Bool × Bool) : Diag Q F := setOne z c.1 c.2.1 c.2.2.1 c.2.2.2.1 c.2.2.2.2

theorem landed_at (hi : Inv P z) (hn : z.W.avail = 1) {v1 v2 : ℕ} (hv1 : v1 ∈ z.Ver.live) (hv2 : v2 ∈ z.Ver.live) (hne : v1 ≠ v2) (c : Site × Q × Q × Bool × Bool) :
    let y := turned (decide (v1 = z.Ver.slot 0)) c
    (landed z c).co.r v1 = y.1 ∧ (landed z c).co.r v2 = y.1 ∧ (landed z c).co.tau v1 = y.2.1 ∧ (landed z c).co.tau v2 = y.2.2.1 ∧
      (landed z c).co.spin v1 OUT = y.2.2.2.1 ∧ (landed z c).co.spin v1 IN = y.2.2.2.2 ∧ (landed z c).co.spin v2 OUT = y.2.2.2.2 ∧
      (landed z c).co.spin v2 IN = y.2.2.2.1 := by
  obtain ⟨h1, h2, hne', hV, -, -⟩ := hi.pair hn
  obtain ⟨⟨a1, a2, a3⟩, b1, b2, b3⟩ := setOne_at (r := c.1) (t1 := c.2.1) (t2 := c.2.2.1) (s1 := c.2.2.2.1) (s2 := c.2.2.2.2) hne'
  unfold landed
  rw [hV] at hv1 hv2
  simp only [Finset.mem_insert, Finset.mem_singleton] at hv1 hv2
  rcases hv1 with e1 | e1 <;> rcases hv2 with e2 | e2
  · exact absurd (e1.trans e2.symm) hne
  · rw [e1, e2, a1, a2, a3, b1, b2, b3]
    simp [turned]
  · rw [e1, e2, a1, a2, a3, b1, b2, b3]
    simp [turned, hne'.symm]
  · exact absurd (e1.trans e2.symm) hne

theorem landing_of (hP : P.Wf) (hf : PosFactors P) (hi : Inv P z) (h0 : z.order = 0) (c : Site × Q × Q × Bool × Bool) :
    (NonZero P (landed z c) → ∃ d', landing P z c = some d') ∧
      ∀ d', landing P z c = some d' → ∃ w ph wt, d' = { landed z c with weight := w, phase := ph, wt := wt } := by
  obtain ⟨hn, hw, hγ⟩ := zero_facts hi h0
  obtain ⟨R, wt, ph, hR, e⟩ := back_run (P := P) (r := c.1) (t1 := c.2.1) (t2 := c.2.2.1) (s1 := c.2.2.2.1) (s2 := c.2.2.2.2) hP hi ⟨hγ, hw, h0⟩
  constructor
  · intro h
    have hp : 0 < P.mod R * oneC P c.1 c.2.1 c.2.2.1 := mul_pos (P.mod.pos (hR h)) (oneC_pos hP hf _ _ _)
    have e := e 0
    rw [metropolis_yes (by rw [h0]; decide) (Or.inr hp)] at e
    have := accepted_run e rfl
    exact ⟨_, congrArg (Option.map Prod.snd) this⟩
  · intro d' h
    obtain ⟨a, ha⟩ := landing_some h
    obtain ⟨out, er, hacc, -, rfl, -⟩ := accepted_ex ha
    have er' := (e 0).symm.trans er
    obtain ⟨-, q, -⟩ := metropolis_accept er' hacc
    exact ⟨_, _, _, q⟩

/-- When no weight of a line vanishes after a jump. -/
theorem nonZero_of (hi : Inv P z) (h0 : z.order = 0) {v1 v2 : ℕ} (hv1 : v1 ∈ z.Ver.live) (hv2 : v2 ∈ z.Ver.live) (hne : v1 ≠ v2) {c : Site × Q × Q × Bool × Bool}
    {y : Site × Q × Q × Bool × Bool} (hy : y = turned (decide (v1 = z.Ver.slot 0)) c)
    (k1 : gW0 P z.ext y.1 y.1 y.2.1 y.2.2.1 y.2.2.2.1 y.2.2.2.1 (z.fl.gMeas (z.sh.vG v1 OUT)) false ≠ 0)
    (k2 : gW0 P z.ext y.1 y.1 y.2.2.1 y.2.1 y.2.2.2.2 y.2.2.2.2 (z.fl.gMeas (z.sh.vG v2 OUT)) false ≠ 0)
    (k3 : (if z.sh.vDir v1 = IN then
        wW0 P z.ext y.1 y.1 y.2.1 y.2.2.1 ((landed z c).co.spin v1) ((landed z c).co.spin v2) false (z.fl.wMeas (z.sh.vW v1)) (z.fl.wDelta (z.sh.vW v1)) false
      else wW0 P z.ext y.1 y.1 y.2.2.1 y.2.1 ((landed z c).co.spin v2) ((landed z c).co.spin v1) false (z.fl.wMeas (z.sh.vW v1)) (z.fl.wDelta (z.sh.vW v1)) false) ≠ 0) :
    NonZero P (landed z c) := by
  obtain ⟨hn, hw, hγ⟩ := zero_facts hi h0
  have hV := two_vertices hi hn hv1 hv2 hne
  obtain ⟨t1, t2, hg, hG, hW, hwv⟩ := hi.pairTopo hn hw hv1 hv2 hne hV
  obtain ⟨a1, a2, a3, a4, a5, a6, a7, a8⟩ := landed_at hi hn hv1 hv2 hne c
  rw [← hy] at a1 a2 a3 a4 a5 a6 a7 a8
  have f1 : z.sh.gV (z.sh.vG v1 OUT) IN = v1 := hi.topo.gV_vG v1 hv1 OUT
  have f2 : z.sh.gV (z.sh.vG v2 OUT) IN = v2 := hi.topo.gV_vG v2 hv2 OUT
  have hsh : (landed z c).sh = z.sh := rfl
  have hfl : (landed z c).fl = z.fl := rfl
  have hex : (landed z c).ext = z.ext := rfl
  have hGl : (landed z c).G = z.G := rfl
  have hWl : (landed z c).W = z.W := rfl
  constructor
  · intro g hg'
    rw [hGl, hG] at hg'
    simp only [Finset.mem_insert, Finset.mem_singleton] at hg'
    unfold gExpected
    rw [hsh, hfl, hex]
    rcases hg' with rfl | rfl
    · rw [f1, t1, a1, a2, a3, a4, a5, a8, hi.noGamG (by omega) _ (hi.topo.vG_mem v1 hv1 OUT)]
      exact k1
    · rw [f2, t2, a1, a2, a3, a4, a6, a7, hi.noGamG (by omega) _ (hi.topo.vG_mem v2 hv2 OUT)]
      exact k2
  · intro w hw'
    rw [hWl, hW, Finset.mem_singleton] at hw'
    subst hw'
    have m3 := hi.topo.vW_mem v1 hv1
    have f3 := hi.topo.wV_vW v1 hv1
    unfold wExpected
    rw [hsh, hfl, hex, hi.noGamW (by omega) _ m3, hi.noWorm hw _ m3]
    cases hd : z.sh.vDir v1 <;> rw [hd] at f3 hwv k3 <;> simp only [Bool.not_false, Bool.not_true] at hwv
    · rw [f3, hwv, a1, a2, a3, a4]
      rw [if_pos rfl] at k3
      exact k3
    · rw [f3, hwv, a1, a2, a3, a4]
      rw [if_neg (by decide)] at k3
      exact k3

theorem landing_inv (hP : P.Wf) (hi : Inv P z) {c : Site × Q × Q × Bool × Bool} (hc : c ∈ jumps P) (h : landing P z c = some d') : Inv P d' := by
  obtain ⟨a, ha⟩ := landing_some h
  exact accepted_inv hP hi (jump_mem z hc) ha

theorem jumps_in (hP : P.Wf) {c : Site × Q × Q × Bool × Bool} (hc : c ∈ jumps P) : SiteIn P c.1 ∧ TauIn P c.2.1 ∧ TauIn P c.2.2.1 := by
  have key : ∀ {t : Q}, t ∈ timeGrid P → TauIn P t := by
    intro t ht
    obtain ⟨n, hn, rfl⟩ := mem_timeGrid.1 ht
    have hb := hP.beta_pos
    have hn' : (n : Q) < 4294967296 := by exact_mod_cast hn
    constructor
    · positivity
    · have : (n : Q) / 4294967296 < 1 := by rw [div_lt_one (by norm_num)]; exact hn'
      calc (n : Q) / 4294967296 * P.beta < 1 * P.beta := mul_lt_mul_of_pos_right this hb
        _ = _ := one_mul _
  simp only [jumps, Finset.mem_product] at hc
  exact ⟨mem_allSites.1 hc.1, key hc.2.1, key hc.2.2.1⟩

/-- What does not change in a jump. -/
theorem landed_frame {w ph : F} {wt : Wts F} {c : Site × Q × Q × Bool × Bool} (e : d' = { landed z c with weight := w, phase := ph, wt := wt }) :
    d'.sh = z.sh ∧ d'.fl = z.fl ∧ d'.G = z.G ∧ d'.W = z.W ∧ d'.Ver = z.Ver ∧ d'.measG = z.measG ∧ d'.gMeasure = z.gMeasure ∧ d'.wMeasure = z.wMeasure ∧
      d'.worm = z.worm ∧ d'.hasGamma = z.hasGamma ∧ d'.order = 1 ∧ d'.co = (landed z c).co := by
  subst e
  exact ⟨rfl, rfl, rfl, rfl, rfl, rfl, rfl, rfl, rfl, rfl, rfl, rfl⟩

theorem landed_site (hi : Inv P z) (h0 : z.order = 0) {v1 v2 : ℕ} (hv1 : v1 ∈ z.Ver.live) (hv2 : v2 ∈ z.Ver.live) (hne : v1 ≠ v2) {c : Site × Q × Q × Bool × Bool}
    (e1 : d'.sh = z.sh) (e2 : d'.G = z.G) (e3 : d'.co = (landed z c).co) : SiteGOk d' := by
  obtain ⟨hn, hw, hγ⟩ := zero_facts hi h0
  have hV := two_vertices hi hn hv1 hv2 hne
  obtain ⟨a1, a2, -⟩ := landed_at hi hn hv1 hv2 hne c
  have key : ∀ v ∈ z.Ver.live, (landed z c).co.r v = (turned (decide (v1 = z.Ver.slot 0)) c).1 := by
    intro v hv
    rw [hV] at hv
    simp only [Finset.mem_insert, Finset.mem_singleton] at hv
    rcases hv with rfl | rfl
    · exact a1
    · exact a2
  intro g hg e
  rw [e1, e3]
  rw [e2] at hg
  exact (key _ (hi.topo.gV_mem g hg _)).trans (key _ (hi.topo.gV_mem g hg _)).symm

theorem landed_labels (gz : GoodState P z) (h0 : z.order = 0) (e1 : d'.W = z.W) (e2 : d'.fl = z.fl) (e3 : d'.order = 1) (e4 : d'.hasGamma = z.hasGamma) :
    labelShare P d' = 1 / (2 * ((MOD_K : ℤ) : Q)) * timeStep P ^ 2 := by
  obtain ⟨hn, hw, hγ⟩ := zero_facts gz.inv h0
  have : freeTimes d' = 2 := by
    unfold freeTimes
    rw [if_neg (by omega), e4, hγ, if_pos rfl, e1, e2]
    rw [Finset.sum_congr rfl (fun w hw => by rw [gz.zero h0 w hw, if_neg (by decide)]), Finset.sum_const, Bundle.card_live gz.inv.count.wWf, hn]
    rfl
  unfold labelShare
  rw [this, e1, hn, pow_one]

end

section
variable {Q F : Type} [Field Q] [LinearOrder Q] [IsStrictOrderedRing Q] [FloorRing Q] [Field F] [StarRing F] [Algebra Q F]
variable {P : Params Q F} {d d' z x : Diag Q F} {bins : ℕ} {g w w0 : NArr F} {s : Measured Q F}

open Classical in
/-- What a diagram of first order contributes on average to a cell of the self energy, border cases left out. -/
noncomputable def sigmaTerm (P : Params Q F) (s : Measured Q F) (bins : ℕ) (j : ℤ) (x : Diag Q F) : F :=
  if OffSigma P bins x then stateWeight P x • sigmaShare P s x 1 j else 0

open Classical in
noncomputable def polarTerm (P : Params Q F) (s : Measured Q F) (bins : ℕ) (j : ℤ) (x : Diag Q F) : F :=
  if OffPolar P bins x then stateWeight P x • polarShare P s x 1 j else 0

theorem Element.inLat {sp : ℕ} {s a s' b r t : ℤ} (h : Element sp P.nsub (P.lx * P.ly) bins s a s' b r t) :
    InLat (pyShape sp P.nsub [(P.lx : ℤ), (P.ly : ℤ)] bins true) [s, a, s', b, r, t] := by
  have hr : r < ((P.lx : ℤ) * P.ly : ℤ) := by exact_mod_cast h.r.2
  simp only [pyShape]
  refine .cons h.s (.cons h.a (.cons h.s' (.cons h.b (.cons ⟨h.r.1, ?_⟩ (.cons h.t .nil)))))
  simpa using hr

theorem pySpin_inj {a b : Spin} (h : pySpin a = pySpin b) : a = b := by
  revert a b
  decide

open Classical in
theorem landing_sigma (hP : P.Wf) (hf : PosFactors P) (hp : PolarForm P) (gz : GoodState P z) (h0 : z.order = 0) (hmG : z.measG = true)
    (hl : FromArrays P bins g w w0) (hw0 : NoOnsite P.nsub w0) (hwe : EndsAlike P.nsub bins w) (hs : s.Fits P 2) (hb : s.map.bins = bins) (hsym : s.map.sym = -1)
    {σ : Spin} {α t : ℤ} (he : Element 2 P.nsub (P.lx * P.ly) bins (pySpin σ) α (pySpin σ) α 0 t) {c : Site × Q × Q × Bool × Bool} (hc : c ∈ jumps P)
    {y : Site × Q × Q × Bool × Bool} (hy : y = turned (decide (z.sh.gV z.gMeasure OUT = z.Ver.slot 0)) c) :
    ((landing P z c).map (sigmaTerm P s bins (ravel g.shape [pySpin σ, α, pySpin σ, α, 0, t]))).getD 0 =
      if OffBins P.beta bins y.2.1 y.2.2.1 ∧ y.2.2.2.2 = σ ∧ y.1.sub = α ∧ pyTauIndex P.beta bins y.2.1 y.2.2.1 = t then
        (1 / (2 * ((MOD_K : ℤ) : Q)) * timeStep P ^ 2) • fockTerm g w σ y.2.2.2.1 α t else 0 := by
  have hi := gz.inv
  obtain ⟨hn, hw, hγ⟩ := zero_facts hi h0
  have hgm := hi.meas.g_mem hmG
  obtain ⟨v1, hv1e⟩ : ∃ v, v = z.sh.gV z.gMeasure OUT := ⟨_, rfl⟩
  obtain ⟨v2, hv2e⟩ : ∃ v, v = z.sh.gV z.gMeasure IN := ⟨_, rfl⟩
  rw [← hv1e] at hy
  have hv1 : v1 ∈ z.Ver.live := by rw [hv1e]; exact hi.topo.gV_mem _ hgm OUT
  have hv2 : v2 ∈ z.Ver.live := by rw [hv2e]; exact hi.topo.gV_mem _ hgm IN
  have hne : v1 ≠ v2 := by
    intro e
    refine hi.noTadpole hw hv1 ?_
    have a1 := hi.topo.vG_gV z.gMeasure hgm OUT
    have a2 := hi.topo.vG_gV z.gMeasure hgm IN
    rw [← hv1e] at a1
    rw [← hv2e, ← e] at a2
    exact a1.trans a2.symm
  obtain ⟨a1, a2, a3, a4, a5, a6, a7, a8⟩ := landed_at hi hn hv1 hv2 hne c
  rw [← hy] at a1 a2 a3 a4 a5 a6 a7 a8
  obtain ⟨j1, j2, j3⟩ := jumps_in hP (show y ∈ jumps P by rw [hy]; exact turned_mem _ hc)
  obtain ⟨l1, l2⟩ := landing_of hP hf hi h0 c
  cases hL : landing P z c with
  | none =>
    rw [Option.map_none, Option.getD_none]
    split_ifs with q
    · obtain ⟨q1, q2, q3, q4⟩ := q
      suffices hz : fockTerm g w σ y.2.2.2.1 α t = 0 by rw [hz, smul_zero]
      by_contra hz
      have : NonZero P (landed z c) := by
        unfold fockTerm at hz
        rw [neg_eq_zero] at hz
        obtain ⟨z1, z2⟩ := mul_ne_zero_iff.1 hz
        have eg : z.sh.vG v2 OUT = z.gMeasure := by rw [hv2e]; exact hi.topo.vG_gV z.gMeasure hgm IN
        obtain ⟨-, -, hg, -, -, -⟩ := hi.pairTopo hn hw hv1 hv2 hne (two_vertices hi hn hv1 hv2 hne)
        have k2 : z.fl.gMeas (z.sh.vG v2 OUT) = true := by
          rw [hi.meas.g_flag _ (by rw [eg]; exact hgm)]
          exact ⟨hmG, eg⟩
        have k1 : z.fl.gMeas (z.sh.vG v1 OUT) = false := by
          have := hi.meas.g_flag _ (hi.topo.vG_mem v1 hv1 OUT)
          rw [← Bool.not_eq_true, this]
          rintro ⟨-, q⟩
          exact hg (q.trans eg.symm)
        have m3 := hi.topo.vW_mem v1 hv1
        have k3 : z.fl.wMeas (z.sh.vW v1) = false := by
          have := hi.meas.w_flag _ m3
          rw [← Bool.not_eq_true, this]
          simp [hmG]
        have hsp : ∀ s1 s2 : Spin, 0 ≤ 2 * pySpin s1 + pySpin s2 ∧ 2 * pySpin s1 + pySpin s2 < 4 := by decide
        refine nonZero_of hi h0 hv1 hv2 hne hy ?_ ?_ ?_
        · rw [k1, (hl.g_eq hP z.ext _ _ j1 j2 j3).1, q3, q4]
          refine mul_ne_zero ?_ z1
          split_ifs <;> norm_num
        · rw [k2, (hl.g_eq hP z.ext _ _ j1 j3 j2).2]
          exact one_ne_zero
        · rw [k3, gz.zero h0 _ m3]
          split_ifs
          · rw [(hl.w_eq hP z.ext _ _ j1 j2 j3).1, a5, a6, a7, a8, q2, q3, q4]
            exact z2
          · rw [(hl.w_eq hP z.ext _ _ j1 j3 j2).1, a5, a6, a7, a8, q2, q3, pyTau_reverse hP.beta_pos hl.pos q1, q4]
            rw [← hwe _ _ _ _ (hsp _ _).1 (hsp _ _).2 (hsp _ _).1 (hsp _ _).2 he.a.1 he.a.2 he.t.1 he.t.2]
            exact z2
      obtain ⟨d', e⟩ := l1 this
      rw [hL] at e
      cases e
    · rfl
  | some d' =>
    rw [Option.map_some, Option.getD_some]
    obtain ⟨wd, ph, wt, e⟩ := l2 _ hL
    obtain ⟨f1, f2, f3, f4, f5, f6, f7, f8, f9, f10, f11, f12⟩ := landed_frame e
    have hi' := landing_inv hP hi hc hL
    have hsg := landed_site hi h0 hv1 hv2 hne f1 f3 f12
    have hlab := landed_labels gz h0 f4 f2 f11 f10
    have hm : MeasuresSigma d' := ⟨by rw [f9]; exact hw, by rw [f6]; exact hmG, by omega, by rw [f10]; exact hγ⟩
    unfold sigmaTerm OffSigma
    rw [f1, f7, f12, ← hv1e, ← hv2e, a3, a4]
    by_cases q1 : OffBins P.beta bins y.2.1 y.2.2.1
    · rw [if_pos q1]
      obtain ⟨s1, s2, s3⟩ := sigma_one hP hi' hsg hl hw0 hwe hs hb hsym hm f11 (by rw [f1, f7, f12, ← hv1e, ← hv2e, a3, a4]; exact q1)
        (v1 := v1) (v2 := v2) (by rw [f1, f7]; exact hv1e) (by rw [f1, f7]; exact hv2e) (t := pyTauIndex P.beta bins y.2.1 y.2.2.1) (by rw [f12, a3, a4])
      rw [f12, a1, a6] at s1 s2 s3
      rw [a5] at s3
      by_cases q : y.2.2.2.2 = σ ∧ y.1.sub = α ∧ pyTauIndex P.beta bins y.2.1 y.2.2.1 = t
      · rw [if_pos ⟨q1, q⟩]
        obtain ⟨q2, q3, q4⟩ := q
        rw [q2, q3, q4] at s2 s3
        rw [sigma_share hP hf hp hi' hm (by rw [f11]; rfl) s2, s3, hlab]
      · rw [if_neg (fun h => q h.2)]
        unfold sigmaShare
        rw [if_neg, smul_zero]
        rintro ⟨-, -, h⟩
        rw [s2, Res.ok.injEq, hl.gShape] at h
        have := ravel_inj s1.inLat he.inLat h
        simp only [List.cons.injEq] at this
        exact q ⟨pySpin_inj this.1, this.2.1, this.2.2.2.2.2.1⟩
    · rw [if_neg q1, if_neg (fun h => q1 h.1)]

open Classical in
theorem landing_polar (hP : P.Wf) (hf : PosFactors P) (hp : PolarForm P) (gz : GoodState P z) (h0 : z.order = 0) (hmG : z.measG = false)
    (hl : FromArrays P bins g w w0) (hs : s.Fits P 4) (hb : s.map.bins = bins)
    {σ σ' : Spin} {α t : ℤ} (he : Element 4 P.nsub (P.lx * P.ly) bins (2 * pySpin σ + pySpin σ') α (2 * pySpin σ' + pySpin σ) α 0 t)
    {c : Site × Q × Q × Bool × Bool} (hc : c ∈ jumps P)
    {y : Site × Q × Q × Bool × Bool} (hy : y = turned (decide (z.sh.wV z.wMeasure OUT = z.Ver.slot 0)) c) :
    ((landing P z c).map (polarTerm P s bins (ravel w.shape [2 * pySpin σ + pySpin σ', α, 2 * pySpin σ' + pySpin σ, α, 0, t]))).getD 0 =
      if OffBins P.beta bins y.2.1 y.2.2.1 ∧ y.2.2.2.2 = σ ∧ y.1.sub = α ∧ pyTauIndex P.beta bins y.2.1 y.2.2.1 = t then
        (if y.2.2.2.1 = σ' then (1 / (2 * ((MOD_K : ℤ) : Q)) * timeStep P ^ 2 * P.polarRW) • bubbleTerm bins g σ σ' α t else 0) else 0 := by
  have hi := gz.inv
  obtain ⟨hn, hw, hγ⟩ := zero_facts hi h0
  have hwm := hi.meas.w_mem hmG
  obtain ⟨v1, hv1e⟩ : ∃ v, v = z.sh.wV z.wMeasure OUT := ⟨_, rfl⟩
  obtain ⟨v2, hv2e⟩ : ∃ v, v = z.sh.wV z.wMeasure IN := ⟨_, rfl⟩
  rw [← hv1e] at hy
  have hv1 : v1 ∈ z.Ver.live := by rw [hv1e]; exact hi.topo.wV_mem _ hwm OUT
  have hv2 : v2 ∈ z.Ver.live := by rw [hv2e]; exact hi.topo.wV_mem _ hwm IN
  have hd1 : z.sh.vDir v1 = OUT := by rw [hv1e]; exact hi.topo.vDir_wV _ hwm OUT
  have hne : v1 ≠ v2 := by
    intro e
    have := hi.topo.vDir_wV _ hwm IN
    rw [← hv2e, ← e, hd1] at this
    exact absurd this (by decide)
  obtain ⟨a1, a2, a3, a4, a5, a6, a7, a8⟩ := landed_at hi hn hv1 hv2 hne c
  rw [← hy] at a1 a2 a3 a4 a5 a6 a7 a8
  obtain ⟨j1, j2, j3⟩ := jumps_in hP (show y ∈ jumps P by rw [hy]; exact turned_mem _ hc)
  obtain ⟨l1, l2⟩ := landing_of hP hf hi h0 c
  cases hL : landing P z c with
  | none =>
    rw [Option.map_none, Option.getD_none]
    split_ifs with q q5
    · obtain ⟨q1, q2, q3, q4⟩ := q
      suffices hz : bubbleTerm bins g σ σ' α t = 0 by rw [hz, smul_zero]
      by_contra hz
      have : NonZero P (landed z c) := by
        unfold bubbleTerm at hz
        rw [neg_eq_zero] at hz
        obtain ⟨z1, z2⟩ := mul_ne_zero_iff.1 hz
        have eg : z.sh.vW v1 = z.wMeasure := by rw [hv1e]; exact hi.topo.vW_wV z.wMeasure hwm OUT
        have kg : ∀ x ∈ z.G.live, z.fl.gMeas x = false := by
          intro x hx
          rw [← Bool.not_eq_true, hi.meas.g_flag x hx]
          simp [hmG]
        have m3 := hi.topo.vW_mem v1 hv1
        have k3 : z.fl.wMeas (z.sh.vW v1) = true := by
          rw [hi.meas.w_flag _ m3]
          exact ⟨hmG, eg⟩
        refine nonZero_of hi h0 hv1 hv2 hne hy ?_ ?_ ?_
        · rw [kg _ (hi.topo.vG_mem v1 hv1 OUT), (hl.g_eq hP z.ext _ _ j1 j2 j3).1, q3, q4, q5]
          refine mul_ne_zero ?_ z2
          split_ifs <;> norm_num
        · rw [kg _ (hi.topo.vG_mem v2 hv2 OUT), (hl.g_eq hP z.ext _ _ j1 j3 j2).1, q3, pyTau_reverse hP.beta_pos hl.pos q1, q4, q2]
          refine mul_ne_zero ?_ z1
          split_ifs <;> norm_num
        · rw [k3, gz.zero h0 _ m3, hd1, if_neg (by decide), (hl.w_eq hP z.ext _ _ j1 j3 j2).2.2]
          exact one_ne_zero
      obtain ⟨d', e⟩ := l1 this
      rw [hL] at e
      cases e
    · rfl
    · rfl
  | some d' =>
    rw [Option.map_some, Option.getD_some]
    obtain ⟨wd, ph, wt, e⟩ := l2 _ hL
    obtain ⟨f1, f2, f3, f4, f5, f6, f7, f8, f9, f10, f11, f12⟩ := landed_frame e
    have hi' := landing_inv hP hi hc hL
    have hsg := landed_site hi h0 hv1 hv2 hne f1 f3 f12
    have hlab := landed_labels gz h0 f4 f2 f11 f10
    have hm : MeasuresPolar d' := ⟨by rw [f9]; exact hw, by rw [f6]; exact hmG, by omega, by rw [f10]; exact hγ⟩
    unfold polarTerm OffPolar
    rw [f1, f8, f12, ← hv1e, ← hv2e, a3, a4]
    by_cases q1 : OffBins P.beta bins y.2.1 y.2.2.1
    · rw [if_pos q1]
      obtain ⟨s1, s2, s3⟩ := polar_one hP hi' hsg hl hs hb hm f11 (by rw [f1, f8, f12, ← hv1e, ← hv2e, a3, a4]; exact q1)
        (v1 := v1) (v2 := v2) (by rw [f1, f8]; exact hv1e) (by rw [f1, f8]; exact hv2e) (t := pyTauIndex P.beta bins y.2.1 y.2.2.1) (by rw [f12, a3, a4])
      rw [f12, a1, a5, a6] at s1 s2 s3
      by_cases q : (y.2.2.2.2 = σ ∧ y.1.sub = α ∧ pyTauIndex P.beta bins y.2.1 y.2.2.1 = t) ∧ y.2.2.2.1 = σ'
      · rw [if_pos ⟨q1, q.1⟩, if_pos q.2]
        obtain ⟨⟨q2, q3, q4⟩, q5⟩ := q
        rw [q2, q3, q4, q5] at s2 s3
        rw [polar_share hP hf hp hi' hm (by rw [f11]; rfl) s2, s3, hlab]
      · rw [← ite_and, if_neg (fun h => q ⟨h.1.2, h.2⟩)]
        unfold polarShare
        rw [if_neg, smul_zero]
        rintro ⟨-, -, h⟩
        rw [s2, Res.ok.injEq, hl.wShape] at h
        have := ravel_inj s1.inLat he.inLat h
        simp only [List.cons.injEq] at this
        have key : ∀ x y x' y' : Spin, 2 * pySpin x + pySpin y = 2 * pySpin x' + pySpin y' → x = x' ∧ y = y' := by decide
        obtain ⟨k1, k2⟩ := key _ _ _ _ this.1
        exact q ⟨⟨k1, this.2.1, this.2.2.2.2.2.1⟩, k2⟩
    · rw [if_neg q1, if_neg (fun h => q1 h.1)]

theorem card_sub {α : ℤ} (h0 : 0 ≤ α) (h1 : α < P.nsub) : ((allSites P).filter fun r => r.sub = α).card = P.lx * P.ly := by
  have : (allSites P).filter (fun r => r.sub = α) = (Finset.range P.lx ×ˢ Finset.range P.ly).image fun x => (⟨α, x.1, x.2⟩ : Site) := by
    ext ⟨a, b, c⟩
    obtain ⟨n, rfl⟩ := Int.eq_ofNat_of_zero_le h0
    simp only [allSites, Finset.mem_filter, Finset.mem_image, Finset.mem_product, Finset.mem_range, Prod.exists, Site.mk.injEq]
    constructor
    · rintro ⟨⟨a', b', c', h, rfl, rfl, rfl⟩, h2⟩
      exact ⟨b', c', h.2, h2.symm, rfl, rfl⟩
    · rintro ⟨b', c', h, rfl, rfl, rfl⟩
      exact ⟨⟨n, b', c', ⟨by exact_mod_cast h1, h⟩, rfl, rfl, rfl⟩, rfl⟩
  rw [this, Finset.card_image_of_injective, Finset.card_product, Finset.card_range, Finset.card_range]
  rintro ⟨a, b⟩ ⟨a', b'⟩ h
  simp only [Site.mk.injEq, Nat.cast_inj] at h
  exact Prod.ext h.2.1 h.2.2

open Classical in
theorem jumps_sum {σ : Spin} {α t : ℤ} (h0 : 0 ≤ α) (h1 : α < P.nsub) (h : Spin → F) :
    ∑ c ∈ jumps P, (if OffBins P.beta bins c.2.1 c.2.2.1 ∧ c.2.2.2.2 = σ ∧ c.1.sub = α ∧ pyTauIndex P.beta bins c.2.1 c.2.2.1 = t then h c.2.2.2.1 else 0) =
      (P.lx * P.ly * offPairs P bins t) • (h UP + h DOWN) := by
  unfold jumps
  rw [Finset.sum_product]
  have e1 : ∀ r ∈ allSites P, ∑ c ∈ timeGrid P ×ˢ timeGrid P ×ˢ both ×ˢ both,
      (if OffBins P.beta bins c.1 c.2.1 ∧ c.2.2.2 = σ ∧ r.sub = α ∧ pyTauIndex P.beta bins c.1 c.2.1 = t then h c.2.2.1 else 0) =
      if r.sub = α then offPairs P bins t • (h UP + h DOWN) else 0 := by
    intro r _
    have e2 : ∀ t1 t2 : Q, ∑ c ∈ both ×ˢ both, (if OffBins P.beta bins t1 t2 ∧ c.2 = σ ∧ r.sub = α ∧ pyTauIndex P.beta bins t1 t2 = t then h c.1 else 0) =
        if r.sub = α then (if OffBins P.beta bins t1 t2 ∧ pyTauIndex P.beta bins t1 t2 = t then h UP + h DOWN else 0) else 0 := by
      intro t1 t2
      rw [Finset.sum_product]
      unfold both
      rw [Finset.sum_pair (by decide), Finset.sum_pair (by decide), Finset.sum_pair (by decide)]
      by_cases q1 : OffBins P.beta bins t1 t2 <;> by_cases q2 : r.sub = α <;> by_cases q3 : pyTauIndex P.beta bins t1 t2 = t <;> cases σ <;> simp [q1, q2, q3]
    rw [Finset.sum_product]
    have e3 : ∀ t1 ∈ timeGrid P, ∑ c ∈ timeGrid P ×ˢ both ×ˢ both,
        (if OffBins P.beta bins t1 c.1 ∧ c.2.2 = σ ∧ r.sub = α ∧ pyTauIndex P.beta bins t1 c.1 = t then h c.2.1 else 0) =
        ∑ t2 ∈ timeGrid P, if r.sub = α then (if OffBins P.beta bins t1 t2 ∧ pyTauIndex P.beta bins t1 t2 = t then h UP + h DOWN else 0) else 0 := by
      intro t1 _
      rw [Finset.sum_product]
      exact Finset.sum_congr rfl fun t2 _ => e2 t1 t2
    rw [Finset.sum_congr rfl e3]
    split_ifs with q
    · rw [← Finset.sum_product' (f := fun t1 t2 => if OffBins P.beta bins t1 t2 ∧ pyTauIndex P.beta bins t1 t2 = t then h UP + h DOWN else 0),
        ← Finset.sum_filter, Finset.sum_const]
      rfl
    · simp
  rw [Finset.sum_congr rfl e1, ← Finset.sum_filter, Finset.sum_const, card_sub h0 h1, smul_smul]

end
end Feyn
