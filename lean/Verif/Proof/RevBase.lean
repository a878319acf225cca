import Verif.Spec.Reverse
import Verif.Proof.Extra
import Verif.Proof.Sites

/-!
# Detailed balance: general lemmas
-/

set_option linter.unusedSectionVars false
set_option linter.unusedSimpArgs false

namespace Feyn

section
variable {Q F : Type} [Field Q] [LinearOrder Q] [IsStrictOrderedRing Q] [Field F]
variable {P : Params Q F} {d d' d'' : Diag Q F}

theorem proposes_metropolis {d rej d' : Diag Q F} {p : Q} {r : Q → Res (Out Q F)} (ho : d.order < MAX_ORDER)
    (h : ∀ u, r u = metropolis d rej p u (.ok d')) : Proposes r p d' := by
  intro u
  rw [h u, metropolis_ok ho rfl]
  constructor
  · intro c; rw [if_pos c]
  · intro c; rw [if_neg c]; exact ⟨_, rfl⟩

/-- What an accepted call tells. -/
theorem metropolis_accept {d rej d' : Diag Q F} {p u : Q} {out : Out Q F} (h : metropolis d rej p u (.ok d') = .ok out)
    (ha : out.tag = .accept) : out.prob = p ∧ out.d = d' ∧ (1 ≤ p ∨ u < p) := by
  unfold metropolis at h
  split_ifs at h with c1 c2
  · simp only [Res.ok_bind, Res.ok.injEq] at h; subst h; exact ⟨rfl, rfl, c2⟩
  · simp only [Res.ok.injEq] at h; subst h; cases ha

theorem skip_not_accept {d : Diag Q F} {out : Out Q F} (h : skip d = .ok out) (ha : out.tag = .accept) : False := by
  simp only [skip, Res.ok.injEq] at h; subst h; cases ha

/-! ### The call probabilities -/

theorem numOps_cast_pos (P : Params Q F) : (0 : Q) < (numOps P : Q) := by
  unfold numOps; split_ifs <;> norm_num

theorem probOfCall_eq (P : Params Q F) {op : Op} (h : op.idx < numOps P) : probOfCall P op = 1 / (numOps P : Q) := by
  unfold probOfCall numOps at *
  by_cases c : P.runGamma3 = true
  · rw [if_pos c] at h; rw [if_pos c, if_pos c]; norm_num
  · rw [if_neg c] at h; rw [if_neg c, if_neg c, if_pos h]; norm_num

theorem probOfCall_pos (P : Params Q F) {op : Op} (h : op.idx < numOps P) : 0 < probOfCall P op := by
  rw [probOfCall_eq P h]; exact one_div_pos.2 (numOps_cast_pos P)

theorem idx_lt (P : Params Q F) {op : Op} (h : op.idx < 19) : op.idx < numOps P := by
  unfold numOps; split_ifs <;> omega

theorem orderRW_getD (hP : P.Wf) {i : ℕ} (h : i ≤ P.maxOrd) : orderRW P i = .ok (P.orderRW.getD i 0) := by
  have := hP.rw_len
  have hi : i < P.orderRW.length := by omega
  simp [orderRW, hi, List.getD]

theorem PosFactors.order_pos (hf : PosFactors P) (hP : P.Wf) {i : ℕ} (h : i ≤ P.maxOrd) :
    0 < P.orderRW.getD i 0 := by
  have := hP.rw_len
  have hi : i < P.orderRW.length := by omega
  have e : P.orderRW.getD i 0 = P.orderRW[i] := by simp [List.getD, hi]
  rw [e]
  exact hf.order _ (List.getElem_mem hi)

/-! ### Same state -/

theorem GHashOk.unique {G G' : Finset ℕ} {k k' : ℕ → ℤ} {b b' : ℤ → Bool} (h : GHashOk G k b) (h' : GHashOk G' k' b')
    {f : ℕ → ℕ} (hf : Set.BijOn f G G') (hk : ∀ g ∈ G, k' (f g) = k g) : b' = b := by
  funext x
  have e : b' x = true ↔ b x = true := by
    rw [h.hash, h'.hash]
    constructor
    · rintro ⟨g', hg', e⟩
      obtain ⟨g, hg, rfl⟩ := hf.surjOn hg'
      exact ⟨g, hg, by rw [← hk g hg]; exact e⟩
    · rintro ⟨g, hg, e⟩
      exact ⟨f g, hf.mapsTo hg, by rw [hk g hg]; exact e⟩
  cases h1 : b' x <;> cases h2 : b x <;> simp_all

theorem WHashOk.unique {G G' : Finset ℕ} {k k' : ℕ → ℤ} {b b' : ℤ → Bool} (h : WHashOk G k b) (h' : WHashOk G' k' b')
    {f : ℕ → ℕ} (hf : Set.BijOn f G G') (hk : ∀ g ∈ G, k' (f g) = k g) : b' = b := by
  funext x
  have e : b' x = true ↔ b x = true := by
    rw [h.hash, h'.hash]
    constructor
    · rintro ⟨g', hg', e⟩
      obtain ⟨g, hg, rfl⟩ := hf.surjOn hg'
      exact ⟨g, hg, by rw [← hk g hg]; exact e⟩
    · rintro ⟨g, hg, e⟩
      exact ⟨f g, hf.mapsTo hg, by rw [hk g hg]; exact e⟩
  cases h1 : b' x <;> cases h2 : b x <;> simp_all

omit [Field Q] [LinearOrder Q] [IsStrictOrderedRing Q] in
theorem prod_bijOn {S T : Finset ℕ} {f : ℕ → ℕ} (hf : Set.BijOn f S T) {a b : ℕ → F} (h : ∀ x ∈ S, b (f x) = a x) :
    ∏ x ∈ T, b x = ∏ x ∈ S, a x := by
  symm
  refine Finset.prod_bij (fun x _ => f x) (fun x hx => hf.mapsTo hx) (fun x hx y hy e => hf.injOn hx hy e)
    (fun y hy => ?_) (fun x hx => (h x hx).symm)
  obtain ⟨x, hx, e⟩ := hf.surjOn hy
  exact ⟨x, hx, e⟩

/-- The discrete part of `SameState`. -/
structure SameParts (d d' : Diag Q F) (fV fG fW : ℕ → ℕ) : Prop where
  order : d'.order = d.order
  sfl : d'.sfl = d.sfl
  ver : Set.BijOn fV d.Ver.live d'.Ver.live
  g : Set.BijOn fG d.G.live d'.G.live
  w : Set.BijOn fW d.W.live d'.W.live
  nVer : d'.Ver.avail = d.Ver.avail
  nG : d'.G.avail = d.G.avail
  nW : d'.W.avail = d.W.avail
  vG : ∀ v ∈ d.Ver.live, ∀ e, d'.sh.vG (fV v) e = fG (d.sh.vG v e)
  vW : ∀ v ∈ d.Ver.live, d'.sh.vW (fV v) = fW (d.sh.vW v)
  vDir : ∀ v ∈ d.Ver.live, d'.sh.vDir (fV v) = d.sh.vDir v
  gV : ∀ g ∈ d.G.live, ∀ e, d'.sh.gV (fG g) e = fV (d.sh.gV g e)
  wV : ∀ w ∈ d.W.live, ∀ e, d'.sh.wV (fW w) e = fV (d.sh.wV w e)
  co : d.order ≠ 0 → ∀ v ∈ d.Ver.live, d'.co.r (fV v) = d.co.r v ∧ d'.co.tau (fV v) = d.co.tau v ∧
    d'.co.spin (fV v) = d.co.spin v
  gK : ∀ g ∈ d.G.live, d'.mo.gK (fG g) = d.mo.gK g
  wK : ∀ w ∈ d.W.live, d'.mo.wK (fW w) = d.mo.wK w
  gFl : ∀ g ∈ d.G.live, d'.fl.gMeas (fG g) = d.fl.gMeas g ∧ d'.fl.gGam (fG g) = d.fl.gGam g
  wFl : ∀ w ∈ d.W.live, d'.fl.wMeas (fW w) = d.fl.wMeas w ∧ d'.fl.wWorm (fW w) = d.fl.wWorm w ∧
    d'.fl.wDelta (fW w) = d.fl.wDelta w ∧ d'.fl.wGam (fW w) = d.fl.wGam w
  exist : d'.worm.exist = d.worm.exist
  worm : d.worm.exist = true → d'.worm.ira = fV d.worm.ira ∧ d'.worm.masha = fV d.worm.masha ∧
    d'.worm.k = d.worm.k ∧ d'.worm.dSpin = d.worm.dSpin ∧ d'.worm.wt = d.worm.wt
  measG : d'.measG = d.measG
  gMeasure : d.measG = true → d'.gMeasure = fG d.gMeasure
  wMeasure : d.measG = false → d'.wMeasure = fW d.wMeasure
  hasGamma : d'.hasGamma = d.hasGamma
  ext : d.hasGamma ≠ 0 → d'.ext = d.ext

theorem SameParts.gExp {fV fG fW : ℕ → ℕ} (s : SameParts d d' fV fG fW) (h : Inv P d) (ho : d.order ≠ 0) {g : ℕ}
    (hg : g ∈ d.G.live) : gExpected P d'.sh d'.co d'.fl d'.ext (fG g) = gExpected P d.sh d.co d.fl d.ext g := by
  unfold gExpected
  have h1 := s.co ho _ (h.topo.gV_mem g hg IN)
  have h2 := s.co ho _ (h.topo.gV_mem g hg OUT)
  rw [s.gV g hg IN, s.gV g hg OUT, h1.1, h1.2.1, h1.2.2, h2.1, h2.2.1, h2.2.2, (s.gFl g hg).1, (s.gFl g hg).2]
  by_cases c : d.hasGamma = 0
  · have : d.fl.gGam g = false := by
      have := h.gamma.g_flag g hg; rw [c] at this; simpa using this
    rw [this]; exact gW0_ext _ _ _ _ _ _ _ _ _ _
  · rw [s.ext c]

theorem SameParts.wExp {fV fG fW : ℕ → ℕ} (s : SameParts d d' fV fG fW) (h : Inv P d) (ho : d.order ≠ 0) {w : ℕ}
    (hw : w ∈ d.W.live) : wExpected P d'.sh d'.co d'.fl d'.ext (fW w) = wExpected P d.sh d.co d.fl d.ext w := by
  unfold wExpected
  have h1 := s.co ho _ (h.topo.wV_mem w hw IN)
  have h2 := s.co ho _ (h.topo.wV_mem w hw OUT)
  obtain ⟨f1, f2, f3, f4⟩ := s.wFl w hw
  rw [s.wV w hw IN, s.wV w hw OUT, h1.1, h1.2.1, h1.2.2, h2.1, h2.2.1, h2.2.2, f1, f2, f3, f4]
  by_cases c : d.hasGamma = 0
  · have : d.fl.wGam w = false := by
      have := h.gamma.w_flag w hw; rw [c] at this; simpa using this
    rw [this]; exact wW0_ext _ _ _ _ _ _ _ _ _ _ _ _
  · rw [s.ext c]

/-- In consistent diagrams the rest follows. -/
theorem SameParts.same {fV fG fW : ℕ → ℕ} (s : SameParts d d' fV fG fW) (h : Inv P d) (h' : Inv P d') :
    SameState d d' fV fG fW := by
  have hg : d.order ≠ 0 → ∀ g ∈ d.G.live, d'.wt.gWt (fG g) = d.wt.gWt g := fun ho g hg => by
    rw [h'.line.g_eq _ (s.g.mapsTo hg), h.line.g_eq g hg, s.gExp h ho hg]
  have hw : d.order ≠ 0 → ∀ w ∈ d.W.live, d'.wt.wWt (fW w) = d.wt.wWt w := fun ho w hw => by
    rw [h'.line.w_eq _ (s.w.mapsTo hw), h.line.w_eq w hw, s.wExp h ho hw]
  have hwt : d'.weight = d.weight := by
    rw [h'.weight, h.weight, s.order]
    by_cases ho : d.order = 0
    · rw [if_pos ho, if_pos ho]
    · rw [if_neg ho, if_neg ho, s.sfl, s.nW]
      unfold totalWeight
      rw [prod_bijOn s.g (hg ho), prod_bijOn s.w (hw ho)]
  exact {
    order := s.order, weight := hwt, phase := by rw [h'.phase, h.phase, hwt], sfl := s.sfl
    ver := s.ver, g := s.g, w := s.w, nVer := s.nVer, nG := s.nG, nW := s.nW
    vG := s.vG, vW := s.vW, vDir := s.vDir, gV := s.gV, wV := s.wV, co := s.co
    gWt := hg, wWt := hw, gK := s.gK, wK := s.wK
    gHash := h.ghash.unique h'.ghash s.g s.gK
    wHash := h.whash.unique h'.whash s.w s.wK
    gFl := s.gFl, wFl := s.wFl, exist := s.exist, worm := s.worm, measG := s.measG
    gMeasure := s.gMeasure, wMeasure := s.wMeasure, hasGamma := s.hasGamma, ext := s.ext }

/-- `SameParts` with all components in their old cells. -/
structure SameCells (d d' : Diag Q F) : Prop where
  order : d'.order = d.order
  sfl : d'.sfl = d.sfl
  ver : d'.Ver.live = d.Ver.live
  g : d'.G.live = d.G.live
  w : d'.W.live = d.W.live
  nVer : d'.Ver.avail = d.Ver.avail
  nG : d'.G.avail = d.G.avail
  nW : d'.W.avail = d.W.avail
  vG : ∀ v ∈ d.Ver.live, d'.sh.vG v = d.sh.vG v
  vW : ∀ v ∈ d.Ver.live, d'.sh.vW v = d.sh.vW v
  vDir : ∀ v ∈ d.Ver.live, d'.sh.vDir v = d.sh.vDir v
  gV : ∀ g ∈ d.G.live, d'.sh.gV g = d.sh.gV g
  wV : ∀ w ∈ d.W.live, d'.sh.wV w = d.sh.wV w
  r : d.order ≠ 0 → ∀ v ∈ d.Ver.live, d'.co.r v = d.co.r v
  tau : d.order ≠ 0 → ∀ v ∈ d.Ver.live, d'.co.tau v = d.co.tau v
  spin : d.order ≠ 0 → ∀ v ∈ d.Ver.live, d'.co.spin v = d.co.spin v
  gK : ∀ g ∈ d.G.live, d'.mo.gK g = d.mo.gK g
  wK : ∀ w ∈ d.W.live, d'.mo.wK w = d.mo.wK w
  gMeas : ∀ g ∈ d.G.live, d'.fl.gMeas g = d.fl.gMeas g
  gGam : ∀ g ∈ d.G.live, d'.fl.gGam g = d.fl.gGam g
  wMeas : ∀ w ∈ d.W.live, d'.fl.wMeas w = d.fl.wMeas w
  wWorm : ∀ w ∈ d.W.live, d'.fl.wWorm w = d.fl.wWorm w
  wDelta : ∀ w ∈ d.W.live, d'.fl.wDelta w = d.fl.wDelta w
  wGam : ∀ w ∈ d.W.live, d'.fl.wGam w = d.fl.wGam w
  exist : d'.worm.exist = d.worm.exist
  worm : d.worm.exist = true → d'.worm = d.worm
  measG : d'.measG = d.measG
  gMeasure : d.measG = true → d'.gMeasure = d.gMeasure
  wMeasure : d.measG = false → d'.wMeasure = d.wMeasure
  hasGamma : d'.hasGamma = d.hasGamma
  ext : d.hasGamma ≠ 0 → d'.ext = d.ext

theorem SameCells.refl (d : Diag Q F) : SameCells d d := by
  constructor <;> intros <;> rfl

theorem SameCells.parts (s : SameCells d d') : SameParts d d' id id id where
  order := s.order
  sfl := s.sfl
  ver := by rw [s.ver]; exact Set.bijOn_id _
  g := by rw [s.g]; exact Set.bijOn_id _
  w := by rw [s.w]; exact Set.bijOn_id _
  nVer := s.nVer
  nG := s.nG
  nW := s.nW
  vG := fun v hv e => by simp [s.vG v hv]
  vW := fun v hv => s.vW v hv
  vDir := fun v hv => s.vDir v hv
  gV := fun v hv e => by simp [s.gV v hv]
  wV := fun v hv e => by simp [s.wV v hv]
  co := fun ho v hv => ⟨s.r ho v hv, s.tau ho v hv, s.spin ho v hv⟩
  gK := s.gK
  wK := s.wK
  gFl := fun g hg => ⟨s.gMeas g hg, s.gGam g hg⟩
  wFl := fun w hw => ⟨s.wMeas w hw, s.wWorm w hw, s.wDelta w hw, s.wGam w hw⟩
  exist := s.exist
  worm := fun e => by rw [s.worm e]; simp
  measG := s.measG
  gMeasure := s.gMeasure
  wMeasure := s.wMeasure
  hasGamma := s.hasGamma
  ext := s.ext

/-! ### Moves keep diagrams consistent -/

theorem rloop_run (hP : P.Wf) (h : Inv P d) (c1 : ¬ (d.order = 0 ∨ d.worm.exist = true)) {v : ℕ}
    (hv : v ∈ d.Ver.live) (r : Site) :
    ((∃ k, d.co.r ((nextVertex d.sh)^[k] v) ≠ d.co.r v) ∧ ∀ u, (Move.changeRLoop v r).run P d u = skip d) ∨
    ∃ vs fw, WalkRes d (d.co.r v) v vs fw ∧ ∀ u, (Move.changeRLoop v r).run P d u =
      metropolis d d (P.mod (movedRatio P d vs r) * (probSite P r / probSite P (d.co.r v))) u
        (.ok (movedDiag P d vs r (movedRatio P d vs r))) := by
  have hwi : WalkInv d (d.co.r v) v v [] (fun _ => false) (fun _ => 0) := {
    nodup := List.nodup_nil
    mem := by simp
    cur_mem := hv
    site := by simp
    cur_site := rfl
    step := by simp
    orbit := by simp
    cur_orbit := ⟨0, rfl⟩
    start := Or.inr rfl
    fv_iff := by simp
    fw_eq := by simp }
  obtain ⟨res, e1, hres, hnone⟩ := loopWalk_spec hP h (d.co.r v) v 19 v [] _ _ hwi rfl
  have c2 : ¬ ¬ P.maxOrd ≤ MAX_ORDER := by have := hP.lt_max; omega
  cases res with
  | none =>
    refine Or.inl ⟨hnone rfl, fun u => ?_⟩
    simp only [Move.run]
    rw [if_neg c1, if_neg c2, deref_live hv, Res.ok_bind, show (2 * MAX_ORDER - 1) = 19 from rfl, e1, Res.ok_bind]
  | some q =>
    refine Or.inr ⟨q.1, q.2, hres q.1 q.2 rfl, fun u => ?_⟩
    simp only [Move.run]
    rw [if_neg c1, if_neg c2, deref_live hv, Res.ok_bind, show (2 * MAX_ORDER - 1) = 19 from rfl, e1, Res.ok_bind]
    exact changeRLoopCore_eq hP h (hres q.1 q.2 rfl) u

theorem Move.good (hP : P.Wf) (h : Inv P d) {m : Move Q} (hm : m.Valid P d) {u : Q} (hu : 0 ≤ u) :
    GoodExt P d (m.run P d u) := by
  obtain ⟨-, hm⟩ := hm
  cases m <;> simp only [Move.run] <;> simp only at hm
  case createWorm w k s =>
    by_cases c : d.order = 0 ∨ d.worm.exist = true
    · rw [if_pos c]; exact (good_skip h).goodExt
    rw [if_neg c]; simp only [not_or, Bool.not_eq_true] at c
    exact (createWormCore_good hP h c.1 c.2 hm.1 hm.2.1 hm.2.2 hu).goodExt
  case deleteWorm =>
    by_cases c : d.order = 0 ∨ d.worm.exist = false
    · rw [if_pos c]; exact (good_skip h).goodExt
    rw [if_neg c]; simp only [not_or, Bool.not_eq_false] at c
    exact (deleteWormCore_good hP h c.1 c.2 hu).goodExt
  case moveWormG dir =>
    by_cases c : d.order = 0 ∨ d.worm.exist = false
    · rw [if_pos c]; exact (good_skip h).goodExt
    rw [if_neg c]; simp only [not_or, Bool.not_eq_false] at c
    exact (moveWormGCore_good hP h c.1 c.2 hu).goodExt
  case moveWormW =>
    by_cases c : d.order = 0 ∨ d.worm.exist = false
    · rw [if_pos c]; exact (good_skip h).goodExt
    rw [if_neg c]; simp only [not_or, Bool.not_eq_false] at c
    exact (moveWormWCore_good hP h c.1 c.2 hu).goodExt
  case reconnect dir =>
    by_cases c : d.order = 0 ∨ d.worm.exist = false
    · rw [if_pos c]; exact (good_skip h).goodExt
    rw [if_neg c]; simp only [not_or, Bool.not_eq_false] at c
    rw [deref_live (h.worm.ira_mem c.2), deref_live (h.worm.masha_mem c.2), Res.ok_bind, Res.ok_bind]
    split_ifs with c2
    · exact (good_skip h).goodExt
    exact (reconnectCore_good hP h c.1 c.2 hu).goodExt
  case add δ k dir dirW tA tB =>
    by_cases c : d.worm.exist = false
    · rw [if_pos c]; exact (good_skip h).goodExt
    rw [if_neg c]
    by_cases c' : d.order = 0 ∨ d.order ≥ P.maxOrd
    · rw [if_pos c']; exact (good_skip h).goodExt
    rw [if_neg c']
    simp only [Bool.not_eq_false] at c
    exact (addCore_good hP h (by omega) (by omega) c hm.1 hm.2.1 hm.2.2.1 hu).goodExt
  case del δ dir =>
    by_cases c : d.worm.exist = false
    · rw [if_pos c]; exact (good_skip h).goodExt
    rw [if_neg c]
    by_cases c' : d.order ≤ 1
    · rw [if_pos c']; exact (good_skip h).goodExt
    rw [if_neg c']
    simp only [Bool.not_eq_false] at c
    exact (delCore_good hP h (by omega) c hu).goodExt
  case changeTau v t =>
    by_cases c : d.order = 0 ∨ d.worm.exist = true
    · rw [if_pos c]; exact (good_skip h).goodExt
    rw [if_neg c]; simp only [not_or, Bool.not_eq_true] at c
    exact (changeTauCore_good hP h c.1 hm.1 hm.2 hu).goodExt
  case changeRLoop v r =>
    by_cases c : d.order = 0 ∨ d.worm.exist = true
    · rw [if_pos c]; exact (good_skip h).goodExt
    rcases rloop_run hP h c hm.1 r with ⟨-, e⟩ | ⟨vs, fw, hw, e⟩
    · have := e u
      simp only [Move.run] at this
      rw [this]; exact (good_skip h).goodExt
    · have := e u
      simp only [Move.run] at this
      rw [this]
      simp only [not_or] at c
      refine (good_metropolis h (h.order_lt hP) fun hacc => ?_).goodExt
      exact ⟨_, rfl, movedDiag_inv h c.1 hw.mem hw.step hm.2 (ratio_ne_zero hu hacc)⟩
  case g2w w =>
    by_cases c : d.order = 0 ∨ d.worm.exist = true ∨ d.measG = false
    · rw [if_pos c]; exact (good_skip h).goodExt
    rw [if_neg c]
    by_cases c' : d.hasGamma ≠ 0
    · rw [if_pos c']; exact (good_skip h).goodExt
    rw [if_neg c']
    simp only [not_or, Bool.not_eq_true, Bool.not_eq_false] at c
    exact (g2wCore_good hP h c.1 c.2.2 (by omega) hm hu).goodExt
  case w2g g =>
    by_cases c : d.order = 0 ∨ d.worm.exist = true ∨ d.measG = true
    · rw [if_pos c]; exact (good_skip h).goodExt
    rw [if_neg c]
    by_cases c' : d.hasGamma ≠ 0
    · rw [if_pos c']; exact (good_skip h).goodExt
    rw [if_neg c']
    simp only [not_or, Bool.not_eq_true] at c
    exact (w2gCore_good hP h c.1 c.2.2 (by omega) hm hu).goodExt
  case delta2cont w t =>
    by_cases c : d.order < 2 ∨ d.worm.exist = true
    · rw [if_pos c]; exact (good_skip h).goodExt
    rw [if_neg c]; simp only [not_or, Bool.not_eq_true] at c
    exact (delta2contCore_good hP h (by omega) hm.1 hm.2 hu).goodExt
  case cont2delta w =>
    by_cases c : d.order < 2 ∨ d.worm.exist = true
    · rw [if_pos c]; exact (good_skip h).goodExt
    rw [if_neg c]; simp only [not_or, Bool.not_eq_true] at c
    exact (cont2deltaCore_good hP h (by omega) hm hu).goodExt
  case toOrder0 =>
    by_cases c : d.worm.exist = true ∨ d.order ≠ 1
    · rw [if_pos c]; exact (good_skip h).goodExt
    rw [if_neg c]
    by_cases c' : d.hasGamma ≠ 0
    · rw [if_pos c']; exact (good_skip h).goodExt
    rw [if_neg c']; simp only [not_or, Bool.not_eq_true] at c
    exact (toOrder0Core_good hP h (by omega) c.1 (by omega)).goodExt
  case backToOrder1 r t1 t2 s1 s2 =>
    by_cases c' : d.hasGamma ≠ 0
    · rw [if_pos c']; exact (good_skip h).goodExt
    rw [if_neg c']
    by_cases c : d.worm.exist = true ∨ d.order ≠ 0
    · rw [if_pos c]; exact (good_skip h).goodExt
    rw [if_neg c]; simp only [not_or, Bool.not_eq_true] at c
    exact (backToOrder1Core_good hP h (by omega) hm.1 hm.2.1 hm.2.2 hu).goodExt
  case toGGGammaG g t =>
    by_cases c : d.order = 0 ∨ d.worm.exist = true ∨ d.hasGamma ≠ 0
    · rw [if_pos c]; exact (good_skip h).goodExt
    rw [if_neg c]; simp only [not_or, Bool.not_eq_true, not_not] at c
    exact toGGGammaGCore_good hP h c.1 c.2.2 hm.1 hm.2 hu
  case fromGGGammaG =>
    by_cases c : d.order = 0 ∨ d.worm.exist = true ∨ d.hasGamma ≠ 1
    · rw [if_pos c]; exact (good_skip h).goodExt
    rw [if_neg c]; simp only [not_or, Bool.not_eq_true, not_not] at c
    exact (fromGGGammaGCore_good hP h c.1 c.2.2 hu).goodExt
  case toWWGammaW w t r =>
    by_cases c : d.order = 0 ∨ d.worm.exist = true ∨ d.hasGamma ≠ 0
    · rw [if_pos c]; exact (good_skip h).goodExt
    rw [if_neg c]; simp only [not_or, Bool.not_eq_true, not_not] at c
    exact toWWGammaWCore_good hP h c.1 c.2.1 c.2.2 hm.1 hm.2.1 hm.2.2 hu
  case fromWWGammaW =>
    by_cases c : d.order = 0 ∨ d.worm.exist = true ∨ d.hasGamma ≠ 2
    · rw [if_pos c]; exact (good_skip h).goodExt
    rw [if_neg c]; simp only [not_or, Bool.not_eq_true, not_not] at c
    exact (fromWWGammaWCore_good hP h c.1 c.2.1 c.2.2 hu).goodExt

/-- An accepted proposal has positive ratio. -/
theorem metropolis_pos {d0 rej : Diag Q F} {prob u : Q} {acc : Res (Diag Q F)} {out : Out Q F} (hu : 0 ≤ u)
    (e : metropolis d0 rej prob u acc = .ok out) (ha : out.tag = .accept) : 0 < out.prob := by
  unfold metropolis at e
  split_ifs at e with c1 c2
  · cases acc with
    | ok x =>
      simp only [Res.ok_bind] at e
      cases e
      rcases c2 with c2 | c2
      · exact lt_of_lt_of_le one_pos c2
      · exact lt_of_le_of_lt hu c2
    | abort => cases e
    | ub => cases e
  · cases e; cases ha

/-- Detailed balance for one accepted move from `d` to `d'` with acceptance ratio `p`. -/
def Bal (P : Params Q F) (d : Diag Q F) (m : Move Q) (d' : Diag Q F) (p : Q) : Prop :=
  (m.rev d).Valid P d' ∧ (m.rev d).rev d' = m ∧
  (∃ d'', Proposes ((m.rev d).run P d') p⁻¹ d'' ∧ SameUpToCells d d'') ∧
  p * (target P d * m.density P d) = target P d' * (m.rev d).density P d'

/-- Assembling `Bal` from the discrete part. -/
theorem bal_intro (hP : P.Wf) (h : Inv P d) (h' : Inv P d') {m : Move Q} {p : Q} (hp : 0 < p)
    (hv : (m.rev d).Valid P d') (hr : (m.rev d).rev d' = m) {d'' : Diag Q F} {fV fG fW : ℕ → ℕ}
    (hpr : Proposes ((m.rev d).run P d') p⁻¹ d'') (hs : SameParts d d'' fV fG fW)
    (hb : p * (target P d * m.density P d) = target P d' * (m.rev d).density P d') : Bal P d m d' p := by
  refine ⟨hv, hr, ⟨d'', hpr, fV, fG, fW, hs.same h ?_⟩, hb⟩
  obtain ⟨out, e, hi, -⟩ := Move.good hP h' hv (le_refl (0 : Q))
  have := (hpr 0).1 (Or.inr (inv_pos.2 hp))
  rw [this] at e
  cases e
  exact hi

/-- The factors of the target distribution that do not depend on the weight of the diagram. -/
def sector (P : Params Q F) (d : Diag Q F) : Q :=
  P.orderRW.getD d.order 0 * (1 / (2 * ((MOD_K : ℤ) : Q))) ^ d.W.avail
    * (if d.worm.exist = true then P.wormRW * d.worm.wt * (1 / ((MOD_K : ℤ) : Q)) else 1)
    * (if d.measG = true then 1 else P.polarRW)
    * (if d.hasGamma = 0 then 1 else if d.measG = true then P.gammaGRW else P.gammaWRW)

theorem target_eq (P : Params Q F) (d : Diag Q F) : target P d = P.mod d.weight * sector P d := by
  unfold target sector; ring

theorem sector_congr (P : Params Q F) {d d' : Diag Q F} (h1 : d'.order = d.order) (h2 : d'.W.avail = d.W.avail)
    (h3 : d'.worm.exist = d.worm.exist) (h4 : d'.worm.wt = d.worm.wt) (h5 : d'.measG = d.measG)
    (h6 : d'.hasGamma = d.hasGamma) : sector P d' = sector P d := by
  unfold sector; rw [h1, h2, h3, h4, h5, h6]

theorem Inv.weight_ne (hP : P.Wf) (h : Inv P d) : d.weight ≠ 0 := by
  rw [h.weight]
  split_ifs
  · exact hP.norm_ne
  · exact h.total_ne

/-- Assembling `Bal` from the discrete part, with the ratio of weights of the reverse move left to be found from the
weights. -/
theorem bal_core (hP : P.Wf) (h : Inv P d) (h' : Inv P d') {m : Move Q} {p u : Q} {out : Out Q F} (hu : 0 ≤ u)
    {R R' : F} {c c' : Q} {e' rej rej' : Diag Q F} (he : metropolis d rej (P.mod R * c) u (.ok e') = .ok out)
    (ha : out.tag = .accept) (hd : out.d = d') (hp : out.prob = p)
    (hw1 : e'.weight = d.weight * R) (hc : 0 < c) (hcc : c * c' = 1)
    (hv : (m.rev d).Valid P d') (hr : (m.rev d).rev d' = m) {d'' : Diag Q F} {fV fG fW : ℕ → ℕ}
    (hrun : ∀ u, (m.rev d).run P d' u = metropolis d' rej' (P.mod R' * c') u (.ok d''))
    (hw2 : d''.weight = d'.weight * R') (hR' : R' ≠ 0) (hs : SameParts d d'' fV fG fW)
    (hb : c * (sector P d * m.density P d) = sector P d' * (m.rev d).density P d') : Bal P d m d' p := by
  obtain ⟨q1, q2, hacc⟩ := metropolis_accept he ha
  have hR := ratio_ne_zero hu hacc
  have hc' : 0 < c' := by rw [eq_inv_of_mul_eq_one_right hcc]; exact inv_pos.2 hc
  have hpr := proposes_metropolis (h'.order_lt hP) hrun
  have hi : Inv P d'' := by
    obtain ⟨out', e, hi, -⟩ := Move.good hP h' hv (le_refl (0 : Q))
    have := (hpr 0).1 (Or.inr (mul_pos (P.mod.pos hR') hc'))
    rw [this] at e
    cases e
    exact hi
  have hsame := (hs.same h hi).weight
  have hRR : R * R' = 1 := by
    rw [hw2, ← hd, q2, hw1] at hsame
    have := h.weight_ne hP
    have e : d.weight * (R * R') = d.weight * 1 := by rw [mul_one, ← mul_assoc]; exact hsame
    exact mul_left_cancel₀ this e
  have hpinv : (P.mod R * c)⁻¹ = P.mod R' * c' := by
    have h1 : P.mod R * P.mod R' = 1 := by rw [← map_mul, hRR, map_one]
    apply inv_eq_of_mul_eq_one_right
    calc P.mod R * c * (P.mod R' * c') = (P.mod R * P.mod R') * (c * c') := by ring
      _ = 1 := by rw [h1, hcc, one_mul]
  rw [hp] at q1
  refine ⟨hv, hr, ⟨d'', by rw [q1, hpinv]; exact hpr, fV, fG, fW, hs.same h hi⟩, ?_⟩
  have hwd : d'.weight = d.weight * R := by rw [← hd, q2, hw1]
  rw [q1, target_eq, target_eq, hwd, map_mul]
  calc P.mod R * c * (P.mod d.weight * sector P d * m.density P d)
      = P.mod d.weight * P.mod R * (c * (sector P d * m.density P d)) := by ring
    _ = _ := by rw [hb]; ring

theorem SameParts.gExp_ne {fV fG fW : ℕ → ℕ} (s : SameParts d d' fV fG fW) (h : Inv P d) (ho : d.order ≠ 0) {g : ℕ}
    (hg : g ∈ d.G.live) : gExpected P d'.sh d'.co d'.fl d'.ext (fG g) ≠ 0 := by
  rw [s.gExp h ho hg, ← h.line.g_eq g hg]; exact h.line.g_ne g hg

theorem SameParts.wExp_ne {fV fG fW : ℕ → ℕ} (s : SameParts d d' fV fG fW) (h : Inv P d) (ho : d.order ≠ 0) {w : ℕ}
    (hw : w ∈ d.W.live) : wExpected P d'.sh d'.co d'.fl d'.ext (fW w) ≠ 0 := by
  rw [s.wExp h ho hw, ← h.line.w_eq w hw]; exact h.line.w_ne w hw

theorem GHashOk.free {G : Finset ℕ} {gK : ℕ → ℤ} {gh gh' : ℤ → Bool} (h : GHashOk G gK gh) {g : ℕ} {k : ℤ}
    (h' : GHashOk G (upd gK g k) gh') (hg : g ∈ G) (hk : gh k = false) : gh' (gK g) = false := by
  by_contra hh
  obtain ⟨w', hw', e'⟩ := (h'.hash _).1 (by simpa using hh)
  simp only [upd_apply] at e'
  split_ifs at e' with q
  · have := (h.hash k).2 ⟨g, hg, e'.symm⟩
    rw [hk] at this; cases this
  · exact q (h.inj w' hw' g hg e')

end
end Feyn
