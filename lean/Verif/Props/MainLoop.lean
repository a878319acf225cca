import Verif.Props.Env

/-!
# C52: the main loop
-/

namespace Feyn

set_option linter.unusedSectionVars false

section
variable {Q F : Type} [Field Q] [LinearOrder Q] [IsStrictOrderedRing Q] [FloorRing Q] [Field F] [Algebra Q F] [StarRing F]
variable {near : F → F → Bool} {P₀ : Params Q F} {e e' : Env Q F}

theorem sumValues_eq {l : List (Est Q Q)} {is : List ℕ} (h : ∀ i ∈ is, i < l.length) :
    sumValues l is = .ok (is.map fun i => ((l[i]?).map fun e => e.accu).getD 0).sum := by
  induction is with
  | nil => rfl
  | cons i is ih =>
    have hi := h i (by simp)
    unfold sumValues valueAt
    rw [List.getElem?_eq_getElem hi, ih fun j hj => h j (by simp [hj])]
    simp [List.getElem?_eq_getElem hi]

theorem printReweight_eq {P : Params Q F} {m : Monitor Q F} (hf : m.Fits P) (hw : m.wormSum P.maxOrd ≠ 0) :
    printReweight P m = .ok { P with wormRW := m.phySum P.maxOrd / m.wormSum P.maxOrd } := by
  have h1 : sumValues m.wormE (List.range' 1 P.maxOrd) = .ok (m.wormSum P.maxOrd) :=
    sumValues_eq fun i hi => by rw [hf.worm]; have := List.mem_range'_1.1 hi; omega
  have h2 : sumValues m.phyE (List.range' 1 P.maxOrd) = .ok (m.phySum P.maxOrd) :=
    sumValues_eq fun i hi => by rw [hf.phy]; have := List.mem_range'_1.1 hi; omega
  unfold printReweight
  rw [h1, h2]
  simp only [valueAt]
  rw [List.getElem?_eq_getElem (by rw [hf.worm]; omega), List.getElem?_eq_getElem (by rw [hf.phy]; omega)]
  simp only [Res.ok_bind]
  rw [if_neg hw]

theorem Recorded.wormAt_le {P : Params Q F} {d : Diag Q F} {m m' : Monitor Q F} (h : Recorded P d m m') (i : ℕ) :
    m.wormAt i ≤ m'.wormAt i := by
  unfold Monitor.wormAt
  rw [h.worm]
  split_ifs
  · cases m.wormE[i]? <;> simp [Est.counted]
  · exact le_refl _

theorem Recorded.phyAt_le {P : Params Q F} {d : Diag Q F} {m m' : Monitor Q F} (h : Recorded P d m m') (i : ℕ) :
    m.phyAt i ≤ m'.phyAt i := by
  unfold Monitor.phyAt
  rw [h.phy]
  split_ifs
  · cases m.phyE[i]? <;> simp [Est.counted]
  · exact le_refl _

theorem sum_map_le {f g : ℕ → Q} (h : ∀ i, f i ≤ g i) (l : List ℕ) : (l.map f).sum ≤ (l.map g).sum := by
  induction l with
  | nil => exact le_refl _
  | cons a l ih => simp only [List.map_cons, List.sum_cons]; exact add_le_add (h a) ih

/-- Hopping and measuring. -/
theorem sweep_ok (hP : P₀.Wf) (hS : StartOk P₀) (h : e.Ok P₀) (ws : List Words) :
    ∃ c mon, hop e.chain ws = .ok c ∧ Reach P₀ c ∧ Recorded c.P c.d e.mon mon ∧
      e.sweep ws = .ok { e with chain := c, mon := mon } ∧ Env.Ok P₀ { e with chain := c, mon := mon } := by
  obtain ⟨c, e1, hr⟩ := C07_no_crash_partial hP hS h.reach ws
  have hcP : c.P = e.chain.P := hop_P e1
  obtain ⟨mon, e2, hf, rec⟩ := C42_measure hP hS hr (m := e.mon) (by rw [hcP]; exact h.fits)
  refine ⟨c, mon, e1, hr, rec, ?_, ⟨hr, hf, by simp only; rw [hcP]; exact h.ratio⟩⟩
  unfold Env.sweep
  rw [e1, Res.ok_bind, e2, Res.ok_bind]
  have hi := hr.inv hP hS
  have h1 := order_le hi.2
  have h2 := hi.1.lt_max
  rw [if_neg (by simp; omega)]

theorem Env.Warm.sweep (hw : e.Warm) {c : Chain Q F} {mon : Monitor Q F} (hcP : c.P = e.chain.P)
    (rec : Recorded c.P c.d e.mon mon) : Env.Warm { e with chain := c, mon := mon } := by
  refine ⟨C43_counts_measure rec hw.counts, ?_, ?_, by simp only; rw [hcP]; exact hw.factors, hw.ratios⟩
  · simp only
    rw [hcP]
    exact lt_of_lt_of_le hw.worm (sum_map_le (fun i => rec.wormAt_le i) _)
  · simp only
    rw [hcP]
    exact lt_of_lt_of_le hw.phy (sum_map_le (fun i => rec.phyAt_le i) _)

/-- Printing. -/
theorem print_ok (hn : ∀ a, near a a = true) (hP : P₀.Wf) (hS : StartOk P₀) (h : e.Ok P₀) (hw : e.Warm) :
    (∃ P', e.print near = .ok { e with chain := { e.chain with P := P' } } ∧ SameModel e.chain.P P' ∧
      Env.Warm { e with chain := { e.chain with P := P' } }) ∨
    (e.print near = .abort ∧ checkDiagram near e.chain.P e.chain.d ≠ .ok true) := by
  have hx := (C17_exact hn hP hS h.reach).2.2
  unfold Env.print
  cases hc : checkDiagram near e.chain.P e.chain.d with
  | abort => exact .inr ⟨rfl, nofun⟩
  | ub => exact absurd hc hx
  | ok b =>
    cases b with
    | false => exact .inr ⟨rfl, nofun⟩
    | true =>
      left
      rw [Res.ok_bind, if_pos rfl, printReweight_eq h.fits (ne_of_gt hw.worm)]
      refine ⟨_, rfl, ⟨_, _, _, _, _, rfl, rfl⟩, ⟨hw.counts, hw.worm, hw.phy, ⟨hw.factors.order, div_pos hw.phy hw.worm,
        hw.factors.polar, hw.factors.gammaG, hw.factors.gammaW⟩, hw.ratios⟩⟩

/-- Saving. -/
theorem save_ok (hP : P₀.Wf) (hS : StartOk P₀) (h : e.Ok P₀) (b : Bool) : e.onSave b = .ok e := by
  unfold Env.onSave Env.save
  split_ifs with q1 q2
  · rw [toDict_eq (h.reach.inv hP hS).2]; rfl
  · rfl
  · rfl

/-- **C38**, when the program saves: the contents of the diagram are written if no composite line is present, and left out otherwise. -/
theorem C38_when (hP : P₀.Wf) (hS : StartOk P₀) (h : e.Ok P₀) :
    (e.chain.d.hasGamma = 0 → ∃ dict, toDict e.chain.d = .ok dict ∧ e.save = .ok (some dict)) ∧
      (e.chain.d.hasGamma ≠ 0 → e.save = .ok none) := by
  obtain ⟨-, hi⟩ := h.reach.inv hP hS
  constructor
  · intro h0
    refine ⟨_, toDict_eq hi, ?_⟩
    unfold Env.save
    rw [if_pos h0, toDict_eq hi]
    rfl
  · intro h0
    unfold Env.save
    rw [if_neg h0]

theorem SameModel.ok {P' : Params Q F} (h : e.Ok P₀) (hs : SameModel e.chain.P P') :
    Env.Ok P₀ { e with chain := { e.chain with P := P' } } :=
  ⟨h.reach.reweight _ _ hs, hs.fits h.fits, by simp only; rw [hs.maxOrd]; exact h.ratio⟩

/-- Reweighting. -/
theorem reweight_ok (hP : P₀.Wf) (hS : StartOk P₀) (h : e.Ok P₀) (b : Bool) :
    ∃ P', e.onReweight b = .ok { e with chain := { e.chain with P := P' } } ∧ SameModel e.chain.P P' ∧
      (e.Warm → Env.Warm { e with chain := { e.chain with P := P' } }) := by
  have hi := h.reach.inv hP hS
  unfold Env.onReweight
  cases b with
  | false => exact ⟨e.chain.P, rfl, ⟨_, _, _, _, _, rfl, rfl⟩, id⟩
  | true =>
    rw [if_pos rfl]
    have : ∃ b P', adjust e.chain.P e.timeRatio e.mon = .ok (b, P') ∧ SameModel e.chain.P P' := by
      by_cases he : Enough e.chain.P e.mon
      · obtain ⟨b, P', k, hsm, -⟩ := C43_adjust_partial h.fits.worm h.fits.phy hi.1.rw_len h.ratio he
        exact ⟨b, P', k, hsm⟩
      · exact ⟨false, _, C43_too_few h.fits.phy _ he, ⟨_, _, _, _, _, rfl, rfl⟩⟩
    obtain ⟨b, P', k, hsm⟩ := this
    rw [k]
    refine ⟨P', rfl, hsm, fun hw => ?_⟩
    have hp := C43_positive hw.counts hw.factors hi.1.one_le h.fits.worm h.fits.phy hi.1.rw_len h.ratio hw.ratios k
    exact ⟨hw.counts, by simp only; rw [hsm.maxOrd]; exact hw.worm, by simp only; rw [hsm.maxOrd]; exact hw.phy, hp, hw.ratios⟩

theorem adjust_beta {P P' : Params Q F} {t : List Q} {m : Monitor Q F} {b : Bool} (h : adjust P t m = .ok (b, P')) :
    P'.beta = P.beta := by
  unfold adjust at h
  obtain ⟨few, -, h⟩ := bind_eq_ok h
  cases few with
  | true => cases h; rfl
  | false =>
    simp only [Bool.false_eq_true, if_false] at h
    obtain ⟨_, -, h⟩ := bind_eq_ok h
    obtain ⟨_, -, h⟩ := bind_eq_ok h
    obtain ⟨s, -, h⟩ := bind_eq_ok h
    obtain ⟨_, -, h⟩ := bind_eq_ok h
    split_ifs at h <;> (cases h; rfl)

theorem quiet_ok {t : Tick Q F} (hl : t.message = true → Listening e) (hq : t.Quiet e.version) :
    e.onMessage near t.message t.files = .ok e := by
  unfold Env.onMessage
  cases hm : t.message with
  | false => rfl
  | true =>
    rw [if_pos rfl]
    rcases hq hm with q | ⟨m, q, q' | q'⟩
    · rw [C35_unreadable (hl hm) q]; rfl
    · rw [C35_stale (hl hm) q q']; rfl
    · rw [C35_no_weights (hl hm) q q']; rfl

theorem squeezeAll_eq {l : List (Est Q Q)} {f : Q} (hf : 0 < f) :
    squeezeAll l f = .ok (l.map fun e => { e with accu := f⁻¹ • e.accu, norm := e.norm / f }) := by
  induction l with
  | nil => rfl
  | cons a l ih =>
    unfold squeezeAll Est.squeeze
    rw [if_pos hf, ih]
    rfl

theorem Measured.Fits.reset {P P' : Params Q F} {s : Measured Q F} {sp : ℤ} (h : s.Fits P sp) (hb : 0 < P'.beta)
    (h1 : P'.lx = P.lx) (h2 : P'.ly = P.ly) (h3 : P'.nsub = P.nsub) (h4 : P'.maxOrd = P.maxOrd) : (s.reset P'.beta).Fits P' sp := by
  refine ⟨⟨hb, h.map.bins, h.map.lat, h.map.dim, h.map.nsub, h.map.sp, h.map.fits⟩, rfl, ?_, ?_, h.sp, ?_⟩
  · rw [h1, h2]; exact h.lat
  · rw [h3]; exact h.nsub
  · rw [h4]
    exact ⟨h.est.orders_pos, h.est.size_pos, h.est.fits, h.est.cells, h.est.perOrder⟩

theorem annealed_fits {P P' : Params Q F} {m : Monitor Q F} (h : m.Fits P) (hs : SameSetup P P') (hr : P.runGamma3 = false)
    (hb : 0 < P'.beta) : (m.annealWeights P'.beta).Fits P' := by
  refine ⟨by rw [hs.maxOrd]; exact h.worm, by rw [hs.maxOrd]; exact h.phy,
    h.sigma.reset hb hs.lx hs.ly hs.nsub hs.maxOrd, h.polar.reset hb hs.lx hs.ly hs.nsub hs.maxOrd, ?_, ?_⟩ <;>
  · intro q; rw [hs.run, hr] at q; cases q

theorem Measured.Fits.squeezed {P : Params Q F} {s : Measured Q F} {sp : ℤ} (h : s.Fits P sp) {f : Q} {x : Histo Q F}
    (hx : s.est.squeeze f = .ok x) : Measured.Fits P { s with est := x } sp := by
  unfold Histo.squeeze at hx
  split_ifs at hx
  cases hx
  exact ⟨h.map, h.beta, h.lat, h.nsub, h.sp, ⟨h.est.orders_pos, h.est.size_pos, h.est.fits, h.est.cells, h.est.perOrder⟩⟩

theorem squeeze_fits {P : Params Q F} {m : Monitor Q F} (h : m.Fits P) (hr : P.runGamma3 = false) {f : Q} (hf : 0 < f) :
    ∃ m', m.squeeze P f = .ok m' ∧ m'.Fits P ∧ (∀ i, m'.wormAt i = f⁻¹ * m.wormAt i) ∧ (∀ i, m'.phyAt i = f⁻¹ * m.phyAt i) := by
  obtain ⟨x, hx⟩ : ∃ x, m.sigma.est.squeeze f = .ok x := by unfold Histo.squeeze; rw [if_pos hf]; exact ⟨_, rfl⟩
  obtain ⟨y, hy⟩ : ∃ y, m.polar.est.squeeze f = .ok y := by unfold Histo.squeeze; rw [if_pos hf]; exact ⟨_, rfl⟩
  unfold Monitor.squeeze
  rw [hx, hy, squeezeAll_eq hf, squeezeAll_eq hf]
  simp only [Est.squeeze, if_pos hf, Res.ok_bind]
  rw [if_neg (by rw [hr]; simp)]
  refine ⟨_, rfl, ⟨by simp [h.worm], by simp [h.phy], h.sigma.squeezed hx, h.polar.squeezed hy, ?_, ?_⟩, ?_, ?_⟩
  · intro q; rw [hr] at q; cases q
  · intro q; rw [hr] at q; cases q
  · intro i
    simp only [Monitor.wormAt, List.getElem?_map]
    cases m.wormE[i]? <;> simp
  · intro i
    simp only [Monitor.phyAt, List.getElem?_map]
    cases m.phyE[i]? <;> simp

theorem sum_map_mul (c : Q) (f : ℕ → Q) (l : List ℕ) : (l.map fun i => c * f i).sum = c * (l.map f).sum := by
  induction l with
  | nil => simp
  | cons a l ih => simp only [List.map_cons, List.sum_cons, ih]; ring

theorem loadBasis_ne_ub {file : Option Q} {beta : Q} : loadBasis file beta ≠ .ub := by
  unfold loadBasis
  split
  · simp
  · split_ifs <;> simp

/-- Following a message. -/
theorem applyMessage_fair (hn : ∀ a, near a a = true) (hP : P₀.Wf) (hS : StartOk P₀) (h : e.Ok P₀) {fs : MsgFiles Q F} {m : Message Q}
    {w : WeightFile Q F} (hr : e.chain.P.runGamma3 = false) (hb : e.chain.P.beta ≤ m.beta) (hsq : 1 ≤ m.squeeze)
    (hns : NoStaleWorm e.chain.d)
    (hl : ∀ P' d', readGW fs w { e.chain.P with beta := m.beta } = .ok P' → fixDiagram P' e.chain.d = .ok d' → LinesNonzero d') :
    (∃ e', applyMessage near e fs m w = .ok e' ∧ e'.Ok P₀ ∧ (e.Warm → e'.Warm)) ∨ applyMessage near e fs m w = .abort := by
  have hi := h.reach.inv hP hS
  have hγ := h.reach.noGamma hP hS hr
  have hb0 : 0 < m.beta := lt_of_lt_of_le hi.1.beta_pos hb
  cases hrd : readGW fs w { e.chain.P with beta := m.beta } with
  | abort => right; unfold applyMessage; simp only; rw [hrd]; rfl
  | ub =>
    exfalso
    unfold readGW at hrd
    have key : ∀ (file : Option Q) (k : Unit → Res (Params Q F)), (loadBasis file m.beta >>= k) = .ub → k () = .ub := by
      intro file k hk
      cases hq : loadBasis file m.beta with
      | ok u => rw [hq] at hk; exact hk
      | abort => rw [hq] at hk; cases hk
      | ub => exact absurd hq loadBasis_ne_ub
    have h1 := key _ _ (key _ _ hrd)
    split at h1 <;> cases h1
  | ok P' =>
    obtain ⟨ss, hbeta⟩ := readGW_ok hrd
    have ss' : SameSetup e.chain.P P' :=
      ⟨ss.maxOrd, ss.run, ss.lx, ss.ly, ss.nsub, ss.order, ss.worm, ss.polar, ss.gammaG, ss.gammaW, ss.mod, ss.ph⟩
    have hbeta' : P'.beta = m.beta := hbeta
    have hA : AnnealTo e.chain.P P' := by
      refine ⟨⟨by rw [hbeta']; exact hb0, by rw [ss'.maxOrd]; exact hi.1.one_le, by rw [ss'.maxOrd]; exact hi.1.lt_max,
        by rw [ss'.maxOrd, ss'.order]; exact hi.1.rw_len, by rw [ss'.lx]; exact hi.1.lx_pos, by rw [ss'.ly]; exact hi.1.ly_pos,
        by rw [ss'.nsub]; exact hi.1.nsub_pos, ?_⟩, ss'.lx, ss'.ly, ss'.nsub, by rw [hbeta']; exact hb, le_of_eq ss'.maxOrd.symm⟩
      have := hi.1.norm_ne
      unfold normWeight at this ⊢
      rw [ss'.lx, ss'.ly, ss'.nsub]
      exact this
    have hfix := hi.2.fix_eq (P' := P') hγ
    have hreach := h.reach.anneal _ P' _ hA hns hfix (hl P' _ hrd hfix)
    obtain ⟨mon, e4, f4, k1, k2⟩ := squeeze_fits (P := P')
      (annealed_fits h.fits ss' hr (by rw [hbeta']; exact hb0)) (by rw [ss'.run]; exact hr) (f := m.squeeze) (by linarith)
    have hrun : P'.runGamma3 = false := by rw [ss'.run]; exact hr
    have hap : applyMessage near e fs m w = (checkDiagram near P' (fixed P' e.chain.d) >>= fun good => if good then
        .ok { e with version := m.version, temp := 1 / m.beta, chain := { e.chain with P := P', d := fixed P' e.chain.d },
                     mon := mon } else .abort) := by
      unfold applyMessage
      simp only
      rw [hrd, Res.ok_bind, if_neg (by rw [hrun]; simp), Res.ok_bind, hfix, Res.ok_bind, e4, Res.ok_bind]
    rw [hap]
    cases hc : checkDiagram near P' (fixed P' e.chain.d) with
    | abort => exact .inr rfl
    | ub => exact absurd hc (C17_exact hn hP hS hreach).2.2
    | ok b =>
      cases b with
      | false => exact .inr rfl
      | true =>
        left
        refine ⟨_, rfl, ⟨hreach, f4, ?_⟩, fun hw => ?_⟩
        · simp only
          rw [ss'.maxOrd]; exact h.ratio
        · have hs0 : (0 : Q) < m.squeeze⁻¹ := by apply inv_pos.2; linarith
          refine ⟨C43_counts_squeeze hsq e4 ⟨hw.counts.worm, hw.counts.phy, hw.counts.sigma, hw.counts.polar, hw.counts.gammaG,
            hw.counts.gammaW⟩, ?_, ?_, ?_, hw.ratios⟩
          · simp only
            unfold Monitor.wormSum
            rw [ss'.maxOrd, show mon.wormAt = fun i => m.squeeze⁻¹ * (e.mon.annealWeights P'.beta).wormAt i from funext k1, sum_map_mul]
            exact mul_pos hs0 hw.worm
          · simp only
            unfold Monitor.phySum
            rw [ss'.maxOrd, show mon.phyAt = fun i => m.squeeze⁻¹ * (e.mon.annealWeights P'.beta).phyAt i from funext k2, sum_map_mul]
            exact mul_pos hs0 hw.phy
          · have := hw.factors
            exact ⟨by simp only; rw [ss'.order]; exact this.order, by simp only; rw [ss'.worm]; exact this.worm,
              by simp only; rw [ss'.polar]; exact this.polar, by simp only; rw [ss'.gammaG]; exact this.gammaG,
              by simp only; rw [ss'.gammaW]; exact this.gammaW⟩

theorem message_ok (hn : ∀ a, near a a = true) (hP : P₀.Wf) (hS : StartOk P₀) (h : e.Ok P₀) {t : Tick Q F} (ht : t.Fair e) :
    (∃ e', e.onMessage near t.message t.files = .ok e' ∧ e'.Ok P₀ ∧ (e.Warm → e'.Warm)) ∨
      e.onMessage near t.message t.files = .abort := by
  cases hm : t.message with
  | false => exact .inl ⟨e, rfl, h, id⟩
  | true =>
    obtain ⟨hl, q | ⟨m, w, q1, q2, q3, q4, q5, q6, q7⟩⟩ := ht hm
    · have := quiet_ok (near := near) (fun _ => hl) q
      rw [hm] at this
      exact .inl ⟨e, this, h, id⟩
    · unfold Env.onMessage
      rw [if_pos rfl, listen_of hl, q1, loadMessage_full, Res.ok_bind]
      simp only
      by_cases hv : e.version ≥ m.version
      · rw [if_pos hv]; exact .inl ⟨e, rfl, h, id⟩
      · rw [if_neg hv, q2]
        simp only
        rcases applyMessage_fair hn hP hS h q3 q4 q5 q6 q7 with ⟨e', k, ko, kw⟩ | k
        · rw [k]; exact .inl ⟨e', rfl, ko, kw⟩
        · rw [k]; exact .inr rfl

/-- **C52**, any run: from a consistent process that has counted some configurations, with any random words, any timing of printing,
saving, messages and reweighting, and fair messages, the main loop never runs into undefined behaviour: after any number of passes it is
in a consistent state again, or the program was ended by its own checks. Missing from the property as stated: runs that print before
anything was counted (`C52_refuted_early_print`) and unfair messages (for instance `C35_refuted_composite`). -/
theorem C52_run_partial (hn : ∀ a, near a a = true) (hP : P₀.Wf) (hS : StartOk P₀) (h : e.Ok P₀) (hw : e.Warm) (step : ℕ)
    (ts : List (Tick Q F)) (hf : FairRun near e step ts) :
    (∃ e', mainLoop near e step ts = .ok e' ∧ e'.Ok P₀ ∧ e'.Warm) ∨ mainLoop near e step ts = .abort := by
  induction ts generalizing e step with
  | nil => exact .inl ⟨e, rfl, h, hw⟩
  | cons t ts ih =>
    have one : (∃ e', mainStep near e (step + 1) t = .ok e' ∧ e'.Ok P₀ ∧ e'.Warm) ∨ mainStep near e (step + 1) t = .abort := by
      obtain ⟨c, mon, e1, hr, rec, k, ok1⟩ := sweep_ok hP hS h t.words
      have w1 := hw.sweep (hop_P e1) rec
      unfold mainStep
      rw [k, Res.ok_bind]
      by_cases hstep : (step + 1) % 4294967296 % 100 = 0
      swap
      · rw [if_neg hstep]; exact .inl ⟨_, rfl, ok1, w1⟩
      rw [if_pos hstep]
      have pr : (∃ e2, Env.onPrint near t.print { e with chain := c, mon := mon } = .ok e2 ∧ e2.Ok P₀ ∧ e2.Warm) ∨
          Env.onPrint near t.print { e with chain := c, mon := mon } = .abort := by
        unfold Env.onPrint
        cases hp : t.print with
        | false => exact .inl ⟨_, rfl, ok1, w1⟩
        | true =>
          rw [if_pos rfl]
          rcases print_ok hn hP hS ok1 w1 with ⟨P', a1, a2, a3⟩ | ⟨a1, -⟩
          · exact .inl ⟨_, a1, SameModel.ok ok1 a2, a3⟩
          · exact .inr a1
      rcases pr with ⟨e2, p1, ok2, w2⟩ | p1
      swap
      · rw [p1]; exact .inr rfl
      rw [p1, Res.ok_bind, save_ok hP hS ok2, Res.ok_bind]
      rcases message_ok hn hP hS ok2 (hf.1 _ _ k p1) with ⟨e3, m1, ok3, w3⟩ | m1
      swap
      · rw [m1]; exact .inr rfl
      rw [m1, Res.ok_bind]
      obtain ⟨P', r1, r2, r3⟩ := reweight_ok hP hS ok3 t.reweight
      exact .inl ⟨_, r1, SameModel.ok ok3 r2, r3 (w3 w2)⟩
    unfold mainLoop
    rcases one with ⟨e', k, ok', w'⟩ | k
    · rw [k, Res.ok_bind]
      exact ih ok' w' _ (hf.2 e' k)
    · rw [k]; exact .inr rfl

/-- **C52**, what ends the program: if no message brings anything new, it ends only because the self check of some state of the simulation
did not succeed; in particular a run without printing always goes on, even from a process that has not counted anything. -/
theorem C52_quiet (hn : ∀ a, near a a = true) (hP : P₀.Wf) (hS : StartOk P₀) (h : e.Ok P₀) (step : ℕ) (ts : List (Tick Q F))
    (hg : e.chain.P.runGamma3 = false) (hq : ∀ t ∈ ts, t.Quiet e.version) (hw : e.Warm ∨ ∀ t ∈ ts, t.print = false) :
    (∃ e', mainLoop near e step ts = .ok e' ∧ e'.Ok P₀ ∧ e'.version = e.version ∧ e'.chain.P.beta = e.chain.P.beta) ∨
    (mainLoop near e step ts = .abort ∧ (∃ t ∈ ts, t.print = true) ∧
      ∃ c, Reach P₀ c ∧ c.d.order ≠ 0 ∧ checkDiagram near c.P c.d ≠ .ok true) := by
  induction ts generalizing e step with
  | nil => exact .inl ⟨e, rfl, h, rfl, rfl⟩
  | cons t ts ih =>
    have one : (∃ e', mainStep near e (step + 1) t = .ok e' ∧ e'.Ok P₀ ∧ e'.version = e.version ∧
          SameModel e.chain.P e'.chain.P ∧ (e.Warm → e'.Warm)) ∨
        (mainStep near e (step + 1) t = .abort ∧ t.print = true ∧
          ∃ c, Reach P₀ c ∧ c.d.order ≠ 0 ∧ checkDiagram near c.P c.d ≠ .ok true) := by
      obtain ⟨c, mon, e1, hr, rec, k, ok1⟩ := sweep_ok hP hS h t.words
      have hcP := hop_P e1
      have w1 : e.Warm → _ := fun hw => hw.sweep hcP rec
      unfold mainStep
      rw [k, Res.ok_bind]
      by_cases hstep : (step + 1) % 4294967296 % 100 = 0
      swap
      · rw [if_neg hstep]; exact .inl ⟨_, rfl, ok1, rfl, by rw [hcP]; exact ⟨_, _, _, _, _, rfl, rfl⟩, w1⟩
      rw [if_pos hstep]
      have pr : (∃ e2, Env.onPrint near t.print { e with chain := c, mon := mon } = .ok e2 ∧ e2.Ok P₀ ∧ e2.version = e.version ∧
            SameModel c.P e2.chain.P ∧ (e.Warm → e2.Warm)) ∨
          (Env.onPrint near t.print { e with chain := c, mon := mon } = .abort ∧ t.print = true ∧
            checkDiagram near c.P c.d ≠ .ok true) := by
        unfold Env.onPrint
        cases hp : t.print with
        | false => exact .inl ⟨_, rfl, ok1, rfl, ⟨_, _, _, _, _, rfl, rfl⟩, w1⟩
        | true =>
          rw [if_pos rfl]
          rcases hw with hw | hw
          · rcases print_ok hn hP hS ok1 (w1 hw) with ⟨P', a1, a2, a3⟩ | ⟨a1, a2⟩
            · exact .inl ⟨_, a1, SameModel.ok ok1 a2, rfl, a2, fun _ => a3⟩
            · exact .inr ⟨a1, rfl, a2⟩
          · have := hw t (by simp)
            rw [hp] at this; cases this
      rcases pr with ⟨e2, p1, ok2, v2, s1, w2⟩ | ⟨p1, p2, p3⟩
      swap
      · rw [p1]
        refine .inr ⟨rfl, p2, c, hr, ?_, p3⟩
        intro ho
        apply p3
        obtain ⟨x1, x2, x3⟩ := C17_exact hn hP hS hr
        cases hx : checkDiagram near c.P c.d with
        | ub => exact absurd hx x3
        | abort => exact absurd ho (x1.1 hx).1
        | ok b =>
          cases b with
          | true => rfl
          | false => exact absurd ho (x2.1 hx).1
      rw [p1, Res.ok_bind, save_ok hP hS ok2, Res.ok_bind]
      rw [quiet_ok (fun _ => .inl (by rw [s1.runGamma3, hcP]; exact hg)) (by rw [v2]; exact hq t (by simp)), Res.ok_bind]
      obtain ⟨P'', r1, r2, r3⟩ := reweight_ok hP hS ok2 t.reweight
      refine .inl ⟨_, r1, SameModel.ok ok2 r2, v2, ?_, fun hw => r3 (w2 hw)⟩
      rw [← hcP]
      obtain ⟨a1, a2, a3, a4, a5, a6, hs⟩ := s1
      rw [hs] at r2
      obtain ⟨b1, b2, b3, b4, b5, b6, rfl⟩ := r2
      exact ⟨b1, b2, b3, b4, b5, b6.trans a6, rfl⟩
    unfold mainLoop
    rcases one with ⟨e', k, ok', v', s', w'⟩ | ⟨k, p, c, q⟩
    · rw [k, Res.ok_bind]
      rcases ih ok' (step + 1) (by rw [s'.runGamma3]; exact hg) (fun t ht => by rw [v']; exact hq t (by simp [ht]))
        (hw.imp w' fun q t ht => q t (by simp [ht])) with ⟨e'', a1, a2, a3, a4⟩ | ⟨a1, ⟨t', a2, a3⟩, a4⟩
      · refine .inl ⟨e'', a1, a2, a3.trans v', a4.trans ?_⟩
        obtain ⟨a1, a2, a3, a4, a5, a6, hs⟩ := s'
        rw [hs]
      · exact .inr ⟨a1, ⟨t', by simp [a2], a3⟩, a4⟩
    · rw [k]; exact .inr ⟨rfl, ⟨t, by simp, p⟩, c, q⟩

/-- **C35**, in the main loop: whatever happens in a run, in particular whatever messages are found, the version never decreases, and the
temperature stays the inverse of `beta`. -/
theorem C35_monotone (step : ℕ) (ts : List (Tick Q F)) (h : mainLoop near e step ts = .ok e') :
    e.version ≤ e'.version ∧ (e'.version = e.version → e'.chain.P.beta = e.chain.P.beta) ∧
    (e.temp = 1 / e.chain.P.beta → e'.temp = 1 / e'.chain.P.beta) := by
  induction ts generalizing e step with
  | nil => cases h; exact ⟨le_refl _, fun _ => rfl, id⟩
  | cons t ts ih =>
    unfold mainLoop at h
    obtain ⟨e1, h1, h⟩ := bind_eq_ok h
    obtain ⟨i1, i2, i3⟩ := ih _ h
    have one : e.version ≤ e1.version ∧ (e1.version = e.version → e1.chain.P.beta = e.chain.P.beta) ∧
        (e.temp = 1 / e.chain.P.beta → e1.temp = 1 / e1.chain.P.beta) := by
      unfold mainStep at h1
      obtain ⟨a, ha, h1⟩ := bind_eq_ok h1
      have sa : a.version = e.version ∧ a.temp = e.temp ∧ a.chain.P.beta = e.chain.P.beta := by
        unfold Env.sweep at ha
        obtain ⟨c, k1, ha⟩ := bind_eq_ok ha
        obtain ⟨mon, k2, ha⟩ := bind_eq_ok ha
        split_ifs at ha
        cases ha
        exact ⟨rfl, rfl, by simp only; rw [hop_P k1]⟩
      by_cases hstep : (step + 1) % 4294967296 % 100 = 0
      swap
      · rw [if_neg hstep] at h1
        cases h1
        exact ⟨le_of_eq sa.1.symm, fun _ => sa.2.2, fun q => by rw [sa.2.1, sa.2.2]; exact q⟩
      rw [if_pos hstep] at h1
      obtain ⟨b, hb, h1⟩ := bind_eq_ok h1
      obtain ⟨c, hc, h1⟩ := bind_eq_ok h1
      obtain ⟨d, hd, h1⟩ := bind_eq_ok h1
      have sb : b.version = a.version ∧ b.temp = a.temp ∧ b.chain.P.beta = a.chain.P.beta := by
        unfold Env.onPrint Env.print at hb
        split_ifs at hb
        · obtain ⟨g, -, hb⟩ := bind_eq_ok hb
          split_ifs at hb
          obtain ⟨P, k, hb⟩ := bind_eq_ok hb
          unfold printReweight at k
          obtain ⟨_, -, k⟩ := bind_eq_ok k
          obtain ⟨_, -, k⟩ := bind_eq_ok k
          obtain ⟨_, -, k⟩ := bind_eq_ok k
          obtain ⟨_, -, k⟩ := bind_eq_ok k
          split_ifs at k
          cases k
          cases hb
          exact ⟨rfl, rfl, rfl⟩
        · cases hb; exact ⟨rfl, rfl, rfl⟩
      have sc : c = b := by
        unfold Env.onSave at hc
        by_cases q : t.save = true
        · rw [if_pos q] at hc
          obtain ⟨_, -, hc⟩ := bind_eq_ok hc
          cases hc; rfl
        · rw [if_neg q] at hc
          cases hc; rfl
      have sd : d.version = c.version ∧ d.temp = c.temp ∧ d.chain.P.beta = c.chain.P.beta ∨
          c.version < d.version ∧ d.temp = 1 / d.chain.P.beta := by
        unfold Env.onMessage at hd
        by_cases q : t.message = true
        · rw [if_pos q] at hd
          obtain ⟨⟨r, x⟩, k, hd⟩ := bind_eq_ok hd
          cases hd
          obtain ⟨k1, k2⟩ := C35_listen_partial k
          cases r with
          | false => rw [k1 rfl]; exact .inl ⟨rfl, rfl, rfl⟩
          | true =>
            obtain ⟨m, -, -, q1, q2, q3, q4, -⟩ := k2 rfl
            exact .inr ⟨by rw [q2]; exact q1, by rw [q4, q3]⟩
        · rw [if_neg q] at hd
          cases hd; exact .inl ⟨rfl, rfl, rfl⟩
      have se : e1.version = d.version ∧ e1.temp = d.temp ∧ e1.chain.P.beta = d.chain.P.beta := by
        unfold Env.onReweight at h1
        by_cases q : t.reweight = true
        · rw [if_pos q] at h1
          obtain ⟨⟨r, P⟩, k, h1⟩ := bind_eq_ok h1
          cases h1
          exact ⟨rfl, rfl, adjust_beta k⟩
        · rw [if_neg q] at h1
          cases h1; exact ⟨rfl, rfl, rfl⟩
      subst sc
      rcases sd with sd | sd
      · exact ⟨by omega, fun _ => by rw [se.2.2, sd.2.2, sb.2.2, sa.2.2],
          fun q => by rw [se.2.1, sd.2.1, sb.2.1, sa.2.1, se.2.2, sd.2.2, sb.2.2, sa.2.2]; exact q⟩
      · exact ⟨by omega, fun q => by omega, fun _ => by rw [se.2.1, sd.2, se.2.2]⟩
    exact ⟨le_trans one.1 i1, fun q => by rw [i2 (by omega), one.2.1 (by omega)], fun q => i3 (one.2.2 q)⟩

end

/-! ### Examples and findings -/

local instance mainStar : StarRing ℚ := starRingOfComm

/-- The process of the example simulation in the state `c` with the statistics `m`. -/
def demoEnv (m : Monitor ℚ ℚ) (c : Chain ℚ ℚ) : Env ℚ ℚ := ⟨3, 1, [1, 1, 1, 1], c, m⟩

/-- Constant tables. -/
def demoTables (x : ℚ) : Tables ℚ ℚ :=
  ⟨fun _ _ _ _ _ _ => x, fun _ _ _ _ _ _ => x, fun _ _ _ _ _ _ => x, fun _ _ _ _ => x, fun _ _ _ _ => x, fun _ _ _ _ _ _ => x⟩

/-- MsgFiles with a message of version `v` that lowers the temperature by a factor of two. -/
def demoFiles (v : ℤ) : MsgFiles ℚ ℚ :=
  ⟨some (MessageDict.full ⟨v, 2, 4⟩), some ⟨some fun b => demoTables b, none, none⟩, some 2, some 2⟩

/-- A pass in which every timer has run out. -/
def demoTick (ws : List Words) (v : ℤ) : Tick ℚ ℚ := ⟨ws, true, true, true, true, demoFiles v⟩

theorem startChain_demo : ∃ c, startChain demoP = .ok c ∧ Reach demoP c ∧ c.P = demoP := by
  have h : (startChain demoP).test (fun _ => true) = true := by decide +kernel
  obtain ⟨c, hc, -⟩ := Res.test_ok h
  refine ⟨c, hc, demoRun_reach (os := []) (by unfold demoRun; rw [hc]; rfl), ?_⟩
  unfold startChain at hc
  obtain ⟨d, -, hc⟩ := bind_eq_ok hc
  cases hc
  rfl

theorem demoStat_fits (w : ℕ) : (demoStat w).Fits demoP :=
  ⟨rfl, rfl, demoMeasured_fits (.inl rfl), demoMeasured_fits (.inr rfl), fun h => absurd h (by decide), fun h => absurd h (by decide)⟩

/-- The hypotheses of the theorems about the main loop are met by the example. -/
theorem demoEnv_ok {c : Chain ℚ ℚ} (hr : Reach demoP c) (hc : c.P = demoP) : (demoEnv (demoStat 500) c).Ok demoP ∧
    (demoEnv (demoStat 500) c).Warm := by
  refine ⟨⟨hr, ?_, ?_⟩, ⟨demoStat_counts _, ?_, ?_, ?_, ?_⟩⟩
  · show (demoStat 500).Fits c.P
    rw [hc]; exact demoStat_fits _
  · show c.P.maxOrd + 1 ≤ 4
    rw [hc]; decide
  · show 0 < (demoStat 500).wormSum c.P.maxOrd
    rw [hc]; decide +kernel
  · show 0 < (demoStat 500).phySum c.P.maxOrd
    rw [hc]; decide +kernel
  · show c.P.Positive
    rw [hc]
    exact ⟨by decide +kernel, by decide +kernel, by decide +kernel, by decide +kernel, by decide +kernel⟩
  · show ∀ x ∈ [(1 : ℚ), 1, 1, 1], 0 < x
    simp

theorem nearQ_refl (a : ℚ) : nearQ a a = true := by simp [nearQ]

/-- Any sequence of passes with old messages, whatever the random words: the example never runs into undefined behaviour. -/
example (ws : List (List Words)) : ∃ c, startChain demoP = .ok c ∧
    mainLoop nearQ (demoEnv (demoStat 500) c) 99 (ws.map fun w => demoTick w 3) ≠ .ub := by
  obtain ⟨c, h1, h2, h3⟩ := startChain_demo
  obtain ⟨k1, k2⟩ := demoEnv_ok h2 h3
  refine ⟨c, h1, ?_⟩
  rcases C52_quiet nearQ_refl demoP_wf demoP_start k1 99 (ws.map fun w => demoTick w 3) (by show c.P.runGamma3 = false; rw [h3]; rfl)
    (by
      intro t ht
      obtain ⟨w, -, rfl⟩ := List.mem_map.1 ht
      exact fun _ => .inr ⟨_, rfl, .inl (le_refl _)⟩) (.inl k2) with ⟨e', q, -⟩ | ⟨q, -⟩ <;> rw [q] <;> nofun

/-- A fair message: version 4 reaches the example in its start state. -/
example : (startChain demoP >>= fun c => mainLoop nearQ (demoEnv (demoStat 500) c) 99 [demoTick [] 4, demoTick [] 2]).test (fun e' =>
    e'.version = 4 ∧ e'.temp = 1 / 2 ∧ e'.chain.P.beta = 2 ∧ e'.mon.wormAt 1 = 125 ∧ e'.chain.d.wt.gWt 0 ≠ 1) = true := by
  decide +kernel

/-- The weight file of `demoFiles`. -/
def demoWeights : WeightFile ℚ ℚ := ⟨some fun b => demoTables b, none, none⟩

/-- A decidable form of `Tick.Fair` for the new message of the example. -/
def fairTest (v : ℤ) (e : Env ℚ ℚ) : Bool :=
  decide (e.chain.P.runGamma3 = false ∧ e.chain.P.beta ≤ 2 ∧
    (e.chain.d.worm.exist = true ∨ e.chain.d.worm.ira ∉ e.chain.d.Ver.live ∧ e.chain.d.worm.masha ∉ e.chain.d.Ver.live)) &&
  (readGW (demoFiles v) demoWeights { e.chain.P with beta := 2 } >>= fun P' => fixDiagram P' e.chain.d).test fun d' =>
    decide ((∀ g ∈ d'.G.live, d'.wt.gWt g ≠ 0) ∧ ∀ w ∈ d'.W.live, d'.wt.wWt w ≠ 0)

theorem fairTest_ok {e : Env ℚ ℚ} {v : ℤ} {ws : List Words} (h : fairTest v e = true) : (demoTick ws v).Fair e := by
  unfold fairTest at h
  simp only [Bool.and_eq_true, decide_eq_true_eq] at h
  obtain ⟨⟨h1, h2, h3⟩, h4⟩ := h
  intro _
  refine ⟨.inl h1, .inr ⟨⟨v, 2, 4⟩, demoWeights, rfl, rfl, h1, h2, by norm_num, h3, ?_⟩⟩
  intro P' d' k1 k2
  have k1' : readGW (demoFiles v) demoWeights { e.chain.P with beta := 2 } = .ok P' := k1
  rw [k1', Res.ok_bind, k2] at h4
  simpa [Res.test, LinesNonzero] using h4

/-- The hypotheses of `C52_run_partial` are met by a run with a new message in its first pass. -/
example : ∃ c, startChain demoP = .ok c ∧ (demoEnv (demoStat 500) c).Ok demoP ∧ (demoEnv (demoStat 500) c).Warm ∧
    FairRun nearQ (demoEnv (demoStat 500) c) 99 [demoTick [mkWorm 0 5] 4] := by
  obtain ⟨c, h1, h2, h3⟩ := startChain_demo
  obtain ⟨k1, k2⟩ := demoEnv_ok h2 h3
  refine ⟨c, h1, k1, k2, ?_, fun _ _ => trivial⟩
  intro e1 e2 a1 a2
  have h : (startChain demoP >>= fun c => (demoEnv (demoStat 500) c).sweep [mkWorm 0 5] >>= fun e1 => e1.onPrint nearQ true).test
    (fairTest 4) = true := by decide +kernel
  have a1' : (demoEnv (demoStat 500) c).sweep [mkWorm 0 5] = .ok e1 := a1
  have a2' : e1.onPrint nearQ true = .ok e2 := a2
  rw [h1, Res.ok_bind, a1', Res.ok_bind, a2'] at h
  exact fairTest_ok h

/-- A message is taken between other passes, and an older one that arrives later changes nothing. -/
example : (startChain demoP >>= fun c => listens nearQ (demoEnv (demoStat 500) c)
    [demoFiles 2, { demoFiles 9 with weights := none }, demoFiles 4, demoFiles 4, demoFiles 3]).test (fun e' =>
      e'.version = 4 ∧ e'.chain.P.beta = 2 ∧ e'.mon.phyAt 1 = 1000) = true := by decide +kernel

/-- **C35** and **C52** need their hypothesis on composite lines: with a composite line present `ListenToMessage` reaches its end without
a return statement, even if there is no message at all. -/
theorem C35_refuted_composite {Q F : Type} [Field Q] [LinearOrder Q] [FloorRing Q] [Field F] [Algebra Q F] (near : F → F → Bool)
    {e : Env Q F} (h : e.chain.P.runGamma3 = true) (hg : e.chain.d.hasGamma ≠ 0) (fs : MsgFiles Q F) : listen near e fs = .ub := by
  unfold listen
  rw [if_neg (by simp [h, hg])]

/-- Such states are reached. -/
example : ∃ c, Reach demoP3 c ∧ ∀ fs, listen nearQ (demoEnv demoMonitor c) fs = .ub := by
  obtain ⟨c, hr, hf⟩ := demo_gamma
  simp only [Bool.and_eq_true, beq_iff_eq] at hf
  refine ⟨c, hr, fun fs => C35_refuted_composite _ ?_ (by show c.d.hasGamma ≠ 0; omega) fs⟩
  cases hc : c.P.runGamma3 with
  | true => exact hc
  | false => have := hr.noGamma demoP3_wf demoP3_start hc; omega

/-- **C35**: a readable message without one of its keys ends the program instead of being ignored. -/
theorem C35_refuted_keys : (startChain demoP >>= fun c => listen nearQ (demoEnv demoMonitor c)
    { demoFiles 4 with message := some ⟨some 4, some 2, none⟩ }) = .abort := by
  have h : (match (startChain demoP >>= fun c => listen nearQ (demoEnv demoMonitor c)
      { demoFiles 4 with message := some ⟨some 4, some 2, none⟩ }) with | .abort => true | _ => false) = true := by decide +kernel
  split at h
  · assumption
  · cases h

/-- **C52** needs its hypothesis that something has been counted: printing before a worm configuration has been counted at an order
above zero divides by zero, which makes the worm factor infinite or not a number. -/
theorem C52_refuted_early_print : (startChain demoP >>= fun c => mainLoop nearQ (demoEnv demoMonitor c) 99
    [⟨[], true, false, false, false, demoFiles 0⟩]) = .ub := by
  have h : (match (startChain demoP >>= fun c => mainLoop nearQ (demoEnv demoMonitor c) 99
    [⟨[], true, false, false, false, demoFiles 0⟩]) with | .ub => true | _ => false) = true := by decide +kernel
  split at h
  · assumption
  · cases h

end Feyn
