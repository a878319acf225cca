import Verif.Spec.Process
import Verif.Proof.EnvSim
import Verif.Props.Estimator
import Verif.Props.Transparent

/-!
# Restarts
-/

set_option linter.unusedSectionVars false

namespace Feyn

/-! ### Parameters -/

section
variable {Q R : Type} [Field Q]

/-- Saving and loading the parameters. -/
theorem ParaMC.round_trip (seeded : ℤ → R) {p : ParaMC Q R} (h1 : p.order < MAX_ORDER) (h2 : p.order + 1 ≤ p.orderRW.length)
    (h3 : p.temp = 1 / p.beta) : ParaMC.fromDict seeded p.toDict = .ok { p with seed := 0 } := by
  unfold ParaMC.fromDict ParaMC.toDict
  simp only [need, twoSizes, Res.ok_bind, Option.getD_some, Option.getD_none, if_pos (And.intro h1 h2), ← h3]

end

/-! ### What never changes in a process -/

section
variable {Q F R : Type} [Field Q] [LinearOrder Q] [IsStrictOrderedRing Q] [FloorRing Q] [Field F] [StarRing F] [Algebra Q F]

/-- Histories that fit into their buffers, and histograms with `bins` time bins. -/
structure Monitor.Plain (bins : ℕ) (m : Monitor Q F) : Prop where
  worm : ∀ e ∈ m.wormE, e.used ≤ HISTORY
  phy : ∀ e ∈ m.phyE, e.used ≤ HISTORY
  sigmaE : m.sigmaE.used ≤ HISTORY
  polarE : m.polarE.used ≤ HISTORY
  sigmaBins : m.sigma.map.bins = bins
  sigmaSym : m.sigma.map.sym = -1
  polarBins : m.polar.map.bins = bins
  polarSym : m.polar.map.sym = 1

/-- What holds for the parameters of a process that does not simulate three-point functions. -/
structure Env.Settled (M : Machine Q F R) (bins : ℕ) (e : Env Q F) : Prop where
  run : e.chain.P.runGamma3 = false
  temp : e.temp = 1 / e.chain.P.beta
  gG : e.chain.P.gGamT = fun _ _ _ _ _ _ _ => 0
  wG : e.chain.P.wGamT = fun _ _ _ _ _ _ _ => 0
  mod : e.chain.P.mod = M.mod
  ph : e.chain.P.ph = M.ph
  mon : e.mon.Plain bins

variable {M : Machine Q F R} {bins : ℕ} {m m' : Monitor Q F} {P P₀ : Params Q F} {e : Env Q F} {near : F → F → Bool}

theorem Monitor.Plain.record {d : Diag Q F} (h : m.Plain bins) (r : Recorded P d m m') : m'.Plain bins := by
  have lst : ∀ (l l' : List (Est Q Q)) (p : ℕ → Prop) [DecidablePred p],
      (∀ i, l'[i]? = if p i then (l[i]?).map Est.counted else l[i]?) → (∀ e ∈ l, e.used ≤ HISTORY) → ∀ e ∈ l', e.used ≤ HISTORY := by
    intro l l' p _ hi hl e he
    obtain ⟨i, hlt, rfl⟩ := List.getElem_of_mem he
    have := hi i
    rw [List.getElem?_eq_getElem hlt] at this
    split_ifs at this
    · obtain ⟨x, hx, hy⟩ := Option.map_eq_some_iff.1 this.symm
      rw [← hy]
      exact hl x (List.mem_of_getElem? hx)
    · exact hl _ (List.mem_of_getElem? this.symm)
  refine ⟨lst _ _ _ r.worm h.worm, lst _ _ _ r.phy h.phy, ?_, ?_, by rw [r.sigmaMap]; exact h.sigmaBins,
    by rw [r.sigmaMap]; exact h.sigmaSym, by rw [r.polarMap]; exact h.polarBins, by rw [r.polarMap]; exact h.polarSym⟩
  · rw [r.sigmaE]; split_ifs; exacts [h.sigmaE, h.sigmaE]
  · rw [r.polarE]; split_ifs; exacts [h.polarE, h.polarE]

theorem Est.squeeze_used {x y : Est Q Q} {f : Q} (h : x.squeeze f = .ok y) : y.used = x.used := by
  unfold Est.squeeze at h
  split_ifs at h
  cases h
  rfl

theorem squeezeAll_used {f : Q} {n : ℕ} : ∀ {l l' : List (Est Q Q)}, squeezeAll l f = .ok l' → (∀ e ∈ l, e.used ≤ n) → ∀ e ∈ l', e.used ≤ n := by
  intro l
  induction l with
  | nil => intro l' h _; cases h; simp
  | cons a l ih =>
    intro l' h hl
    unfold squeezeAll at h
    obtain ⟨b, h1, h⟩ := bind_eq_ok h
    obtain ⟨l2, h2, h⟩ := bind_eq_ok h
    cases h
    intro e he
    rcases List.mem_cons.1 he with rfl | he
    · rw [Est.squeeze_used h1]; exact hl _ (by simp)
    · exact ih h2 (fun x hx => hl x (by simp [hx])) e he

theorem Monitor.Plain.squeeze {f : Q} (h : m.Plain bins) (hr : P.runGamma3 = false) (k : m.squeeze P f = .ok m') : m'.Plain bins := by
  unfold Monitor.squeeze at k
  obtain ⟨a1, -, k⟩ := bind_eq_ok k
  obtain ⟨a2, -, k⟩ := bind_eq_ok k
  obtain ⟨w, e1, k⟩ := bind_eq_ok k
  obtain ⟨p, e2, k⟩ := bind_eq_ok k
  obtain ⟨s, e3, k⟩ := bind_eq_ok k
  obtain ⟨q, e4, k⟩ := bind_eq_ok k
  rw [if_neg (by rw [hr]; simp)] at k
  cases k
  exact ⟨squeezeAll_used e1 h.worm, squeezeAll_used e2 h.phy, by rw [Est.squeeze_used e3]; exact h.sigmaE,
    by rw [Est.squeeze_used e4]; exact h.polarE, h.sigmaBins, h.sigmaSym, h.polarBins, h.polarSym⟩

theorem Env.Settled.reweight {P' : Params Q F} (h : e.Settled M bins) (hs : SameModel e.chain.P P') :
    Env.Settled M bins { e with chain := { e.chain with P := P' } } := by
  obtain ⟨a, b, c, x, y, -, rfl⟩ := hs
  exact ⟨h.run, h.temp, h.gG, h.wG, h.mod, h.ph, h.mon⟩

theorem Env.Settled.look {fs : MsgFiles Q F} (h : e.Settled M bins) {r : Bool × Env Q F} (k : listen near e fs = .ok r) :
    r.2.Settled M bins := by
  rw [listen_of (.inl h.run)] at k
  obtain ⟨o, -, k⟩ := bind_eq_ok k
  cases o with
  | none => cases k; exact h
  | some msg =>
    simp only at k
    split_ifs at k
    · cases k; exact h
    · cases hw : fs.weights with
      | none => rw [hw] at k; cases k; exact h
      | some w =>
        rw [hw] at k
        obtain ⟨x, k1, k⟩ := bind_eq_ok k
        cases k
        obtain ⟨-, hb, ht, ss, -, -, -, hq, -⟩ := applyMessage_ok k1
        have hrun : x.chain.P.runGamma3 = false := by rw [ss.run]; exact h.run
        refine ⟨hrun, by rw [ht, hb], ?_, ?_, by rw [ss.mod]; exact h.mod, by rw [ss.ph]; exact h.ph, ?_⟩
        · unfold applyMessage at k1
          simp only at k1
          obtain ⟨P1, k2, k1⟩ := bind_eq_ok k1
          rw [if_neg (by rw [(readGW_ok k2).1.run]; simp [h.run])] at k1
          obtain ⟨P2, k3, k1⟩ := bind_eq_ok k1
          cases k3
          obtain ⟨_, -, k1⟩ := bind_eq_ok k1
          obtain ⟨_, -, k1⟩ := bind_eq_ok k1
          obtain ⟨_, -, k1⟩ := bind_eq_ok k1
          split_ifs at k1
          cases k1
          simp only
          unfold readGW at k2
          obtain ⟨_, -, k2⟩ := bind_eq_ok k2
          obtain ⟨_, -, k2⟩ := bind_eq_ok k2
          cases hg : w.gw with
          | none => rw [hg] at k2; cases k2
          | some t => rw [hg] at k2; cases k2; exact h.gG
        · unfold applyMessage at k1
          simp only at k1
          obtain ⟨P1, k2, k1⟩ := bind_eq_ok k1
          rw [if_neg (by rw [(readGW_ok k2).1.run]; simp [h.run])] at k1
          obtain ⟨P2, k3, k1⟩ := bind_eq_ok k1
          cases k3
          obtain ⟨_, -, k1⟩ := bind_eq_ok k1
          obtain ⟨_, -, k1⟩ := bind_eq_ok k1
          obtain ⟨_, -, k1⟩ := bind_eq_ok k1
          split_ifs at k1
          cases k1
          simp only
          unfold readGW at k2
          obtain ⟨_, -, k2⟩ := bind_eq_ok k2
          obtain ⟨_, -, k2⟩ := bind_eq_ok k2
          cases hg : w.gw with
          | none => rw [hg] at k2; cases k2
          | some t => rw [hg] at k2; cases k2; exact h.wG
        · refine Monitor.Plain.squeeze ?_ hrun hq
          have := h.mon
          exact ⟨this.worm, this.phy, this.sigmaE, this.polarE, this.sigmaBins, this.sigmaSym, this.polarBins, this.polarSym⟩

/-- A process is equal to itself. -/
theorem Env.Ok.sim (h : e.Ok P₀) : EnvSimOk True Ren.id e.chain e.chain P₀ e e := by
  have hE : ∀ l : List (Est Q Q), List.Forall₂ EstSim l l := by
    intro l
    induction l with
    | nil => exact .nil
    | cons a l ih => exact .cons ⟨rfl, rfl⟩ ih
  have hH : ∀ x : Measured Q F, MeasuredSim True x x := fun x => ⟨rfl, ⟨fun _ => rfl, rfl, rfl, rfl, rfl, fun _ _ _ => rfl⟩⟩
  refine ⟨⟨rfl, rfl, rfl, rfl, ChainSim.of_alike (.refl _) (.refl _), ⟨.inr rfl, .inr rfl⟩, ?_⟩, h, h⟩
  exact ⟨hE _, hE _, ⟨rfl, rfl⟩, ⟨rfl, rfl⟩, fun _ => ⟨rfl, rfl⟩, fun _ => ⟨rfl, rfl⟩, hH _, hH _, fun _ => rfl, fun _ => rfl⟩

theorem Env.Ok.look (hn : ∀ a, near a a = true) (hP : P₀.Wf) (hS : StartOk P₀) (h : e.Ok P₀) {fs : MsgFiles Q F} {r : Bool × Env Q F}
    (hf : (lookTick fs).Fair e) (k : listen near e fs = .ok r) : r.2.Ok P₀ := by
  have := message_ok hn hP hS h hf
  have q : e.onMessage near (lookTick fs).message (lookTick fs).files = .ok r.2 := by
    show (listen near e fs >>= fun r => Res.ok r.2) = _
    rw [k]
    rfl
  rcases this with ⟨x, k1, hx, -⟩ | k1
  · rw [q] at k1; cases k1; exact hx
  · rw [q] at k1; cases k1

theorem Env.Ok.toss (hP : P₀.Wf) (hS : StartOk P₀) (h : e.Ok P₀) {ws : List Words} {c : Chain Q F} (k : hop e.chain ws = .ok c) :
    Env.Ok P₀ { e with chain := c } := by
  obtain ⟨x, e1, hr⟩ := C07_no_crash_partial hP hS h.reach ws
  rw [k] at e1
  cases e1
  have hcP := hop_P k
  exact ⟨hr, by simp only; rw [hcP]; exact h.fits, by simp only; rw [hcP]; exact h.ratio⟩

theorem Env.Settled.toss (h : e.Settled M bins) {ws : List Words} {c : Chain Q F} (k : hop e.chain ws = .ok c) :
    Env.Settled M bins { e with chain := c } := by
  have hcP := hop_P k
  exact ⟨by simp only; rw [hcP]; exact h.run, by simp only; rw [hcP]; exact h.temp, by simp only; rw [hcP]; exact h.gG,
    by simp only; rw [hcP]; exact h.wG, by simp only; rw [hcP]; exact h.mod, by simp only; rw [hcP]; exact h.ph, h.mon⟩

theorem Env.Ok.loop (hn : ∀ a, near a a = true) (hP : P₀.Wf) (hS : StartOk P₀) (h : e.Ok P₀) {n : ℕ} {ts : List (Tick Q F)}
    (hf : FairRun near e n ts) {x : Env Q F} (k : mainLoop near e n ts = .ok x) : x.Ok P₀ := by
  have := h.sim.loop hn hP hS ts n hf (.inl trivial)
  rw [k] at this
  exact this.ok

theorem Env.Settled.step (hn : ∀ a, near a a = true) (hP : P₀.Wf) (hS : StartOk P₀) (ho : e.Ok P₀) (h : e.Settled M bins) {n : ℕ}
    {t : Tick Q F} {x : Env Q F} (ht : ∀ e1 e2, e.sweep t.words = .ok e1 → e1.onPrint near t.print = .ok e2 → t.Fair e2)
    (k : mainStep near e n t = .ok x) : x.Settled M bins := by
  obtain ⟨c, mon, e1, hr, rec, k1, o1⟩ := sweep_ok hP hS ho t.words
  have h1 : Env.Settled M bins { e with chain := c, mon := mon } := by
    have := h.toss e1
    exact { this with mon := h.mon.record rec }
  unfold mainStep at k
  rw [k1, Res.ok_bind] at k
  split_ifs at k
  swap
  · cases k; exact h1
  obtain ⟨e2, k2, k⟩ := bind_eq_ok k
  have h2 : e2.Ok P₀ ∧ e2.Settled M bins := by
    unfold Env.onPrint at k2
    split_ifs at k2
    · unfold Env.print at k2
      obtain ⟨g, -, k2⟩ := bind_eq_ok k2
      split_ifs at k2
      obtain ⟨P', k3, k2⟩ := bind_eq_ok k2
      cases k2
      exact ⟨SameModel.ok o1 (printReweight_model k3), h1.reweight (printReweight_model k3)⟩
    · cases k2; exact ⟨o1, h1⟩
  rw [save_ok hP hS h2.1, Res.ok_bind] at k
  obtain ⟨e3, k3, k⟩ := bind_eq_ok k
  have o3 : e3.Ok P₀ := by
    rcases message_ok hn hP hS h2.1 (ht _ _ k1 k2) with ⟨y, k4, hy, -⟩ | k4
    · rw [k3] at k4; cases k4; exact hy
    · rw [k3] at k4; cases k4
  have h3 : e3.Settled M bins := by
    unfold Env.onMessage at k3
    split_ifs at k3
    · obtain ⟨r, k4, k3⟩ := bind_eq_ok k3
      cases k3
      exact h2.2.look k4
    · cases k3; exact h2.2
  obtain ⟨P', r1, r2, -⟩ := reweight_ok hP hS o3 t.reweight
  rw [r1] at k
  cases k
  exact h3.reweight r2

theorem Env.Settled.loop (hn : ∀ a, near a a = true) (hP : P₀.Wf) (hS : StartOk P₀) (ts : List (Tick Q F)) :
    ∀ {e x : Env Q F} (n : ℕ), e.Ok P₀ → e.Settled M bins → FairRun near e n ts → mainLoop near e n ts = .ok x → x.Settled M bins := by
  induction ts with
  | nil => intro e x n _ h _ k; cases k; exact h
  | cons t ts ih =>
    intro e x n ho h hf k
    unfold mainLoop at k
    obtain ⟨y, k1, k⟩ := bind_eq_ok k
    have oy : y.Ok P₀ := by
      have := ho.sim.step hn hP hS (n + 1) hf.1 (.inl trivial)
      rw [k1] at this
      exact this.1.ok
    exact ih (n + 1) oy (h.step hn hP hS ho hf.1 k1) (hf.2 y k1) k

/-! ### Reading back what was written -/

theorem Est.read (x junk : Est Q Q) (h : x.used ≤ HISTORY) :
    ∃ y, junk.fromDict x.toDict = .ok y ∧ EstSim x y ∧ y.used ≤ HISTORY := by
  have hl : ¬ (x.save.1.length > HISTORY) := by unfold Est.save; simpa using h
  unfold Est.fromDict Est.toDict
  simp only [need, Res.ok_bind]
  rw [if_neg hl]
  unfold Est.load
  simp only
  rw [if_neg hl, Res.ok_bind]
  refine ⟨_, rfl, ?_, ?_⟩
  · unfold Est.updateReal EstSim
    simp only
    split_ifs <;> exact ⟨rfl, rfl⟩
  · unfold Est.updateReal
    simp only
    split_ifs <;> exact not_lt.1 hl

theorem bundle_read (d : ℕ → Option (EstDict Q)) : ∀ (es l : List (Est Q Q)) (i : ℕ), l.length = es.length →
    (∀ k, k < es.length → d (i + k) = (es[k]?).map Est.toDict) → (∀ e ∈ es, e.used ≤ HISTORY) →
    ∃ es', bundleFromDict d i l = .ok es' ∧ List.Forall₂ EstSim es es' ∧ ∀ e ∈ es', e.used ≤ HISTORY := by
  intro es
  induction es with
  | nil =>
    intro l i hl _ _
    cases l with
    | nil => exact ⟨[], rfl, .nil, by simp⟩
    | cons => cases hl
  | cons e es ih =>
    intro l i hl hd hu
    cases l with
    | nil => cases hl
    | cons a l =>
      obtain ⟨y, h1, h2, h3⟩ := Est.read e a (hu e (by simp))
      obtain ⟨es', k1, k2, k3⟩ := ih l (i + 1) (by simpa using hl)
        (fun k hk => by have := hd (k + 1) (by simpa using hk); rw [show i + 1 + k = i + (k + 1) by omega]; simpa using this)
        fun x hx => hu x (by simp [hx])
      refine ⟨y :: es', ?_, .cons h2 k2, ?_⟩
      · have h0 := hd 0 (by simp)
        simp only [Nat.add_zero, List.getElem?_cons_zero, Option.map_some] at h0
        unfold bundleFromDict
        rw [h0]
        simp only
        rw [h1, Res.ok_bind, k1, Res.ok_bind]
      · intro x hx
        rcases List.mem_cons.1 hx with rfl | hx
        · exact h3
        · exact k3 x hx

/-- A histogram for parameters that fit. -/
theorem Measured.allocate_ok {p : ParaMC Q R} {sp sym : ℤ} (junk : ℤ → F) (ho : 0 < p.order)
    (hm : (⟨p.beta, p.bins, [(p.lx : ℤ), (p.ly : ℤ)], p.nsub, sp, sym⟩ : IndexMap Q).Wf)
    (hf : (p.order : ℤ) * (⟨p.beta, p.bins, [(p.lx : ℤ), (p.ly : ℤ)], p.nsub, sp, sym⟩ : IndexMap Q).sizeSmooth < 4294967296) :
    ∃ s, Measured.allocate p sp sym junk = .ok s ∧ s.map = ⟨p.beta, p.bins, [(p.lx : ℤ), (p.ly : ℤ)], p.nsub, sp, sym⟩ ∧
      s.est.Wf p.order s.map.sizeSmooth ∧ s.est.beta = p.beta := by
  have hs : 0 < (⟨p.beta, p.bins, [(p.lx : ℤ), (p.ly : ℤ)], p.nsub, sp, sym⟩ : IndexMap Q).sizeSmooth := by
    rw [hm.sizeSmooth_eq]; exact latVol_pos hm.shape_pos
  obtain ⟨h, k1, k2, k3, -⟩ := C33_allocate p.beta p.bins (p.lx * p.ly) _ p.order ((p.lx * p.ly * p.nsub : ℕ) : Q) junk hs
    (by exact_mod_cast ho) hf
  unfold Measured.allocate
  simp only
  rw [k1, Res.ok_bind]
  exact ⟨_, rfl, rfl, k2, k3⟩

theorem Measured.read {s s0 : Measured Q F} {n : ℕ} (hmap : s0.map = s.map) (h : s.est.Wf n s.map.sizeSmooth)
    (h0 : s0.est.Wf n s0.map.sizeSmooth) :
    ∃ s', s0.fromDict (s.toDict n) = .ok s' ∧ s'.map = s.map ∧ s'.est.Wf n s'.map.sizeSmooth ∧ s'.est.beta = s0.est.beta ∧
      ∀ A : Prop, (A → s0.est.beta = s.est.beta) → MeasuredSim A s s' := by
  unfold Measured.fromDict Measured.toDict
  simp only [need, Res.ok_bind, hmap, ne_eq, not_true_eq_false, if_false]
  unfold Histo.load
  have hp : s0.est.perOrder = s.map.sizeSmooth := by rw [h0.perOrder, hmap]
  have hc : s0.est.cells = n * s.map.sizeSmooth := by rw [h0.cells, hmap]
  rw [if_neg (by rw [hp, hc]; omega), Res.ok_bind]
  refine ⟨_, rfl, rfl, ?_, rfl, fun A hA => ⟨rfl, hA, rfl, rfl, by simp only; rw [hc, h.cells], by simp only; rw [hp, h.perOrder],
    fun i h1 h2 => ?_⟩⟩
  · exact ⟨h0.orders_pos, h.size_pos, h.fits, hc, hp⟩
  · simp only
    rw [if_pos ⟨h1, by rw [hp, ← h.cells]; exact h2⟩]

theorem newBundle_length (n : ℕ) (junk : ℕ → ℕ → Q) : (newBundle n junk).length = n + 1 := by simp [newBundle]

/-! ### Pointers of a loaded diagram -/

theorem fixDiagram_pointers {d d' : Diag Q F} (h : fixDiagram P d = .ok d') :
    d'.worm.ira = d.worm.ira ∧ d'.worm.masha = d.worm.masha := by
  have hg : ∀ n m, ∀ (b : Diag Q F) i b', fixG P b i = .ok b' → b.worm.ira = n ∧ b.worm.masha = m → b'.worm.ira = n ∧ b'.worm.masha = m := by
    intro n m b i b' e hb
    unfold fixG at e
    obtain ⟨_, -, e⟩ := bind_eq_ok e
    obtain ⟨_, -, e⟩ := bind_eq_ok e
    obtain ⟨_, -, e⟩ := bind_eq_ok e
    obtain ⟨_, -, e⟩ := bind_eq_ok e
    cases e
    exact hb
  have hw : ∀ n m, ∀ (b : Diag Q F) i b', fixW P b i = .ok b' → b.worm.ira = n ∧ b.worm.masha = m → b'.worm.ira = n ∧ b'.worm.masha = m := by
    intro n m b i b' e hb
    unfold fixW at e
    obtain ⟨_, -, e⟩ := bind_eq_ok e
    obtain ⟨_, -, e⟩ := bind_eq_ok e
    obtain ⟨_, -, e⟩ := bind_eq_ok e
    obtain ⟨_, -, e⟩ := bind_eq_ok e
    cases e
    exact hb
  have hl : ∀ d d' : Diag Q F, fixLines P d = .ok d' → d'.worm.ira = d.worm.ira ∧ d'.worm.masha = d.worm.masha := by
    intro d d' e
    unfold fixLines at e
    simp only at e
    obtain ⟨d1, e1, e⟩ := bind_eq_ok e
    obtain ⟨d2, e2, e⟩ := bind_eq_ok e
    have k1 := loopM_keep (p := fun x : Diag Q F => x.worm.ira = d.worm.ira ∧ x.worm.masha = d.worm.masha) (hg _ _) _ e1 ⟨rfl, rfl⟩
    have k2 := loopM_keep (p := fun x : Diag Q F => x.worm.ira = d.worm.ira ∧ x.worm.masha = d.worm.masha) (hw _ _) _ e2 k1
    cases e
    exact k2
  unfold fixDiagram at h
  split_ifs at h
  · obtain ⟨_, -, h⟩ := bind_eq_ok h
    obtain ⟨_, -, h⟩ := bind_eq_ok h
    have := hl _ _ h
    exact this
  · have := hl _ _ h
    exact this

theorem load_pointers {P₁ : Params Q F} {d d₀ d' : Diag Q F} (hi : Inv P₁ d) (h0 : d₀.Fresh) (hx : d.worm.exist = false)
    (h : loadDiagram P (dictOf d) d₀ = .ok d') : d'.worm.ira = NULL ∧ d'.worm.masha = NULL := by
  have e : fixDiagram P d₀ = .ok (fixed P d₀) := by
    refine fixDiagram_eq h0.hasGamma (by rw [h0.g]; exact Bundle.wf_init) (by rw [h0.w]; exact Bundle.wf_init)
      (fresh_topo h0) ?_ ?_
    · intro q; rw [h0.worm] at q; cases q
    · intro q; rw [h0.worm] at q; cases q
  unfold loadDiagram at h
  rw [e, Res.ok_bind, fromDict_eq] at h
  obtain ⟨x, ex, hl⟩ := readDict_loaded (y := fixed P d₀) hi h0.g h0.w h0.ver h0.hasGamma (fun _ => h0.ira) (fun _ => h0.masha)
  rw [ex, Res.ok_bind] at h
  obtain ⟨q1, q2⟩ := fixDiagram_pointers h
  exact ⟨q1.trans (hl.iraN hx), q2.trans (hl.mashaN hx)⟩

/-! ### Loading what was saved -/

theorem Measured.Fits.map_eq {s : Measured Q F} {sp sym : ℤ} (h : s.Fits P sp) (hb : s.map.bins = bins) (hs : s.map.sym = sym) :
    s.map = ⟨P.beta, bins, [(P.lx : ℤ), (P.ly : ℤ)], P.nsub, sp, sym⟩ := by
  have h1 := h.beta
  have h2 := h.lat
  have h3 := h.nsub
  have h4 := h.sp
  cases hm : s.map with
  | mk a b c d e f => rw [hm] at h1 h2 h3 h4 hb hs; simp only at h1 h2 h3 h4 hb hs; subst h1 h2 h3 h4 hb hs; rfl

variable {p : Job Q F R} {fs : Disk Q F R} {mem : Memory Q F} {w : WeightFile Q F} {P' : Params Q F}

theorem Env.Settled.read (h : p.env.Settled M bins) : fs.readGW w (ParaMC.params M { p.para with seed := 0 }) = fs.readGW w p.env.chain.P := by
  unfold Disk.readGW Feyn.readGW
  have hp : (ParaMC.params M { p.para with seed := 0 } : Params Q F).beta = p.env.chain.P.beta := rfl
  rw [hp]
  refine congrArg _ (funext fun _ => congrArg _ (funext fun _ => ?_))
  cases w.gw with
  | none => rfl
  | some t =>
    simp only
    congr 1
    unfold ParaMC.params Job.para
    simp only [← h.gG, ← h.wG, ← h.mod, ← h.ph]

theorem Disk.readGW_basis (h : fs.readGW w P = .ok P') : fs.basis P.beta = .ok () := by
  unfold Disk.readGW Feyn.readGW at h
  obtain ⟨_, h1, h⟩ := bind_eq_ok h
  obtain ⟨_, h2, h⟩ := bind_eq_ok h
  unfold Disk.basis
  rw [h1, Res.ok_bind, h2]

/-- Restarting from the files that were saved. -/
theorem Job.load_saved (hP : P₀.Wf) (hS : StartOk P₀) (ho : p.env.Ok P₀) (hs : p.env.Settled M p.bins) {f : ParaFile Q R} {s : Statis Q F}
    (k : p.save = .ok (some (f, s))) (h1 : fs.para = some f) (h2 : fs.statis = some s) (h0 : mem.diag.Fresh) (hw : fs.weights = some w)
    (hr : fs.readGW w p.env.chain.P = .ok P') :
    ∃ d' mon', loadDiagram P' (dictOf p.env.chain.d) mem.diag = .ok d' ∧
      Job.load M mem fs = .ok (Job.make { p.para with seed := 0 } P' d' mon') ∧
      MonSim p.env.SameBeta false p.env.mon mon' ∧ mon'.Fits P' ∧ mon'.Plain p.bins := by
  obtain ⟨hpw, hi⟩ := ho.reach.inv hP hS
  have hγ := ho.reach.noGamma hP hS hs.run
  obtain ⟨ss, hb⟩ := readGW_ok hr
  -- what was saved
  unfold Job.save Env.save at k
  rw [if_pos hγ, toDict_eq hi] at k
  simp only [Res.ok_bind] at k
  cases k
  -- parameters
  have e1 := ParaMC.round_trip M.seeded (p := p.para) hpw.lt_max hpw.rw_len hs.temp
  have e2 : fs.readGW w (ParaMC.params M { p.para with seed := 0 }) = .ok P' := hs.read.trans hr
  have e3 : fs.basis ({ p.para with seed := 0 } : ParaMC Q R).beta = .ok () := Disk.readGW_basis hr
  -- histograms
  have m1 := ho.fits.sigma.map_eq hs.mon.sigmaBins hs.mon.sigmaSym
  have m2 := ho.fits.polar.map_eq hs.mon.polarBins hs.mon.polarSym
  obtain ⟨s1, a1, a2, a3, a4⟩ := Measured.allocate_ok (p := { p.para with seed := 0 }) (sp := 2) (sym := -1) mem.sigma hpw.one_le
    (by have := ho.fits.sigma.map; rw [m1] at this; exact this)
    (by have := ho.fits.sigma.est.fits; rw [m1] at this; exact this)
  obtain ⟨t1, b1, b2, b3, b4⟩ := Measured.allocate_ok (p := { p.para with seed := 0 }) (sp := 4) (sym := 1) mem.polar hpw.one_le
    (by have := ho.fits.polar.map; rw [m2] at this; exact this)
    (by have := ho.fits.polar.est.fits; rw [m2] at this; exact this)
  obtain ⟨s2, a5, a6, a7, a8, a9⟩ := Measured.read (s := p.env.mon.sigma) (s0 := s1) (n := p.env.chain.P.maxOrd) (a2.trans m1.symm)
    ho.fits.sigma.est a3
  obtain ⟨t2, b5, b6, b7, b8, b9⟩ := Measured.read (s := p.env.mon.polar) (s0 := t1) (n := p.env.chain.P.maxOrd) (b2.trans m2.symm)
    ho.fits.polar.est b3
  -- the diagram
  obtain ⟨d', c1, -⟩ := load_relabeled P' hi hγ h0
  -- estimators
  obtain ⟨w1, f1, f2, f3⟩ := bundle_read (bundleToDict p.env.mon.wormE) p.env.mon.wormE (newBundle p.env.chain.P.maxOrd mem.worm) 0
    (by rw [newBundle_length, ho.fits.worm]) (fun k _ => by rw [Nat.zero_add]; rfl) hs.mon.worm
  obtain ⟨w2, g1, g2, g3⟩ := bundle_read (bundleToDict p.env.mon.phyE) p.env.mon.phyE (newBundle p.env.chain.P.maxOrd mem.phy) 0
    (by rw [newBundle_length, ho.fits.phy]) (fun k _ => by rw [Nat.zero_add]; rfl) hs.mon.phy
  obtain ⟨w3, i1, i2, i3⟩ := Est.read p.env.mon.sigmaE (Est.new mem.sigmaE) hs.mon.sigmaE
  obtain ⟨w4, j1, j2, j3⟩ := Est.read p.env.mon.polarE (Est.new mem.polarE) hs.mon.polarE
  refine ⟨d', ⟨w1, w2, w3, w4, Est.new mem.gammaGE, Est.new mem.gammaWE, s2, t2, none, none⟩, c1, ?_, ?_, ?_, ?_⟩
  · unfold Job.load Disk.paraFile
    rw [h1]
    simp only [Res.ok_bind, need]
    rw [e1, Res.ok_bind, hw, h2]
    simp only [Res.ok_bind]
    rw [e2, Res.ok_bind, e3, Res.ok_bind, a1, Res.ok_bind, b1, Res.ok_bind, a5, Res.ok_bind, b5, Res.ok_bind]
    rw [if_neg (by show ¬ (p.env.chain.P.runGamma3 = true); rw [hs.run]; simp)]
    unfold loadConfig Monitor.fromDict
    simp only [if_true, need, Res.ok_bind]
    have f1' : bundleFromDict (bundleToDict p.env.mon.wormE) 0 (newBundle p.para.order mem.worm) = .ok w1 := f1
    have g1' : bundleFromDict (bundleToDict p.env.mon.phyE) 0 (newBundle p.para.order mem.phy) = .ok w2 := g1
    rw [c1, Res.ok_bind, f1', Res.ok_bind, g1', Res.ok_bind, i1, Res.ok_bind, j1, Res.ok_bind, Res.ok_bind]
  · exact ⟨f2, g2, i2, j2, nofun, nofun, a9 _ fun q => a4.trans q.1.symm, b9 _ fun q => b4.trans q.2.symm, nofun, nofun⟩
  · refine ⟨?_, ?_, ?_, ?_, fun q => ?_, fun q => ?_⟩
    · rw [ss.maxOrd, ← ho.fits.worm]; exact f2.length_eq.symm
    · rw [ss.maxOrd, ← ho.fits.phy]; exact g2.length_eq.symm
    · have hf := ho.fits.sigma
      exact ⟨by simp only; rw [a6]; exact hf.map, by simp only; rw [a6, hb]; exact hf.beta, by simp only; rw [a6, ss.lx, ss.ly]; exact hf.lat,
        by simp only; rw [a6, ss.nsub]; exact hf.nsub, by simp only; rw [a6]; exact hf.sp, by simp only; rw [ss.maxOrd]; exact a7⟩
    · have hf := ho.fits.polar
      exact ⟨by simp only; rw [b6]; exact hf.map, by simp only; rw [b6, hb]; exact hf.beta, by simp only; rw [b6, ss.lx, ss.ly]; exact hf.lat,
        by simp only; rw [b6, ss.nsub]; exact hf.nsub, by simp only; rw [b6]; exact hf.sp, by simp only; rw [ss.maxOrd]; exact b7⟩
    · rw [ss.run, hs.run] at q; cases q
    · rw [ss.run, hs.run] at q; cases q
  · exact ⟨f3, g3, i3, j3, by simp only; rw [a6]; exact hs.mon.sigmaBins, by simp only; rw [a6]; exact hs.mon.sigmaSym,
      by simp only; rw [b6]; exact hs.mon.polarBins, by simp only; rw [b6]; exact hs.mon.polarSym⟩

/-! ### Processes that can be reached -/

theorem readGW_anneal (hw : P.Wf) {fm : MsgFiles Q F} (h : Feyn.readGW fm w P = .ok P') : AnnealTo P P' := by
  obtain ⟨ss, hb⟩ := readGW_ok h
  refine ⟨⟨by rw [hb]; exact hw.beta_pos, by rw [ss.maxOrd]; exact hw.one_le, by rw [ss.maxOrd]; exact hw.lt_max,
    by rw [ss.maxOrd, ss.order]; exact hw.rw_len, by rw [ss.lx]; exact hw.lx_pos, by rw [ss.ly]; exact hw.ly_pos,
    by rw [ss.nsub]; exact hw.nsub_pos, ?_⟩, ss.lx, ss.ly, ss.nsub, le_of_eq hb.symm, le_of_eq ss.maxOrd.symm⟩
  have := hw.norm_ne
  unfold normWeight at this ⊢
  rw [ss.lx, ss.ly, ss.nsub]
  exact this

theorem readGW_gamma {fm : MsgFiles Q F} (h : Feyn.readGW fm w P = .ok P') : P'.gGamT = P.gGamT ∧ P'.wGamT = P.wGamT := by
  unfold Feyn.readGW at h
  obtain ⟨_, -, h⟩ := bind_eq_ok h
  obtain ⟨_, -, h⟩ := bind_eq_ok h
  cases hg : w.gw with
  | none => rw [hg] at h; cases h
  | some t => rw [hg] at h; cases h; exact ⟨rfl, rfl⟩

/-- A new process. -/
theorem Job.buildNew_ok (hP : P₀.Wf) (h0 : mem.diag.Fresh) (h : Job.buildNew M mem fs = .ok p) (hu : p.para.Usable)
    (hp : p.env.chain.P = P₀) (hc : p.env.chain.counter = 0) : p.env.Ok P₀ ∧ p.env.Settled M p.bins := by
  unfold Job.buildNew at h
  obtain ⟨f, -, h⟩ := bind_eq_ok h
  obtain ⟨pd, -, h⟩ := bind_eq_ok h
  obtain ⟨q, eq, h⟩ := bind_eq_ok h
  obtain ⟨w, -, h⟩ := bind_eq_ok h
  obtain ⟨P1, er, h⟩ := bind_eq_ok h
  have ht : q.temp = 1 / q.beta := by
    unfold ParaMC.fromDict at eq
    simp only at eq
    iterate 19 obtain ⟨_, -, eq⟩ := bind_eq_ok eq
    split_ifs at eq
    iterate 5 obtain ⟨_, -, eq⟩ := bind_eq_ok eq
    cases eq
    rfl
  obtain ⟨ss, hb⟩ := readGW_ok er
  obtain ⟨g1, g2⟩ := readGW_gamma er
  split_ifs at h with hrun hord
  · obtain ⟨_, -, h⟩ := bind_eq_ok h
    cases h
  obtain ⟨_, -, h⟩ := bind_eq_ok h
  obtain ⟨s, e1, h⟩ := bind_eq_ok h
  obtain ⟨t, e2, h⟩ := bind_eq_ok h
  obtain ⟨d, e3, h⟩ := bind_eq_ok h
  cases h
  have hp : P1 = P₀ := hp
  subst hp
  have hc : q.counter = 0 := hc
  have ss : SameSetup (ParaMC.params M q) P1 := ss
  have hbeta : P1.beta = q.beta := hb
  have hmax : P1.maxOrd = q.order := ss.maxOrd
  have hlx : P1.lx = q.lx := ss.lx
  have hly : P1.ly = q.ly := ss.ly
  have hns : P1.nsub = q.nsub := ss.nsub
  have pos : 0 < q.order := Nat.pos_of_ne_zero hord
  have u1 : 0 < q.bins := hu.bins
  have u2 : (q.order : ℤ) * (4 * q.nsub * 4 * q.nsub * (q.lx * q.ly) * q.bins) < 4294967296 := by
    have := hu.fits
    simp only [Job.para, Job.make] at this
    rw [hmax, hlx, hly, hns] at this
    exact this
  have x1 : 0 < q.lx := hlx ▸ hP.lx_pos
  have x2 : 0 < q.ly := hly ▸ hP.ly_pos
  have x3 : 0 < q.nsub := hns ▸ hP.nsub_pos
  have wf : ∀ sp sym : ℤ, 0 < sp → sp ≤ 4 → (⟨q.beta, q.bins, [(q.lx : ℤ), (q.ly : ℤ)], q.nsub, sp, sym⟩ : IndexMap Q).Wf ∧
      (q.order : ℤ) * (⟨q.beta, q.bins, [(q.lx : ℤ), (q.ly : ℤ)], q.nsub, sp, sym⟩ : IndexMap Q).sizeSmooth < 4294967296 := by
    intro sp sym h1 h4
    have n1 : (0 : ℤ) < q.nsub := by exact_mod_cast x3
    have l1 : (0 : ℤ) < q.lx := by exact_mod_cast x1
    have l2 : (0 : ℤ) < q.ly := by exact_mod_cast x2
    have b1 : (0 : ℤ) < q.bins := by exact_mod_cast u1
    have o1 : (1 : ℤ) ≤ q.order := by exact_mod_cast pos
    have vol : latVol [(q.lx : ℤ), (q.ly : ℤ)] = q.lx * q.ly := by simp [latVol]
    have le : sp * q.nsub * sp * q.nsub * (q.lx * q.ly) * (q.bins : ℤ) ≤ 4 * q.nsub * 4 * q.nsub * (q.lx * q.ly) * q.bins := by
      have : sp * q.nsub ≤ 4 * (q.nsub : ℤ) := by nlinarith
      gcongr
    have le2 : 4 * (q.nsub : ℤ) * 4 * q.nsub * (q.lx * q.ly) * q.bins ≤
        (q.order : ℤ) * (4 * q.nsub * 4 * q.nsub * (q.lx * q.ly) * q.bins) := le_mul_of_one_le_left (by positivity) o1
    have fit : sp * q.nsub * sp * q.nsub * latVol [(q.lx : ℤ), (q.ly : ℤ)] * (q.bins : ℤ) < 4294967296 := by
      rw [vol]; omega
    have W : (⟨q.beta, q.bins, [(q.lx : ℤ), (q.ly : ℤ)], q.nsub, sp, sym⟩ : IndexMap Q).Wf :=
      ⟨hbeta ▸ hP.beta_pos, u1, ⟨by simp, by simpa using ⟨x1, x2⟩⟩, rfl, n1, h1, fit⟩
    refine ⟨W, ?_⟩
    rw [W.sizeSmooth_eq, IndexMap.latVol_smooth]
    refine lt_of_le_of_lt ?_ u2
    rw [vol]
    gcongr
  obtain ⟨s', a1, a2, a3, a4⟩ := Measured.allocate_ok mem.sigma pos (wf 2 (-1) (by norm_num) (by norm_num)).1
    (wf 2 (-1) (by norm_num) (by norm_num)).2
  obtain ⟨t', b1, b2, b3, b4⟩ := Measured.allocate_ok mem.polar pos (wf 4 1 (by norm_num) (by norm_num)).1
    (wf 4 1 (by norm_num) (by norm_num)).2
  rw [e1] at a1
  cases a1
  rw [e2] at b1
  cases b1
  have hr : P1.runGamma3 = false := by
    rw [ss.run]
    exact Bool.eq_false_iff.2 hrun
  refine ⟨⟨?_, ?_, hmax ▸ hu.ratio⟩, ⟨hr, by rw [← hbeta] at ht; exact ht, g1, g2, ss.mod, ss.ph, ?_⟩⟩
  · simp only [Job.make, hc]
    exact .start _ _ h0 e3
  · refine ⟨?_, ?_, ?_, ?_, fun q => ?_, fun q => ?_⟩
    · simp only [Job.make]; rw [newBundle_length, hmax]
    · simp only [Job.make]; rw [newBundle_length, hmax]
    · refine ⟨by simp only [Job.make]; rw [a2]; exact (wf 2 (-1) (by norm_num) (by norm_num)).1, by simp only [Job.make]; rw [a2, hbeta],
        by simp only [Job.make]; rw [a2, hlx, hly], by simp only [Job.make]; rw [a2, hns], by simp only [Job.make]; rw [a2], ?_⟩
      simp only [Job.make]
      rw [hmax]
      exact ⟨a3.orders_pos, a3.size_pos, a3.fits, a3.cells, a3.perOrder⟩
    · refine ⟨by simp only [Job.make]; rw [b2]; exact (wf 4 1 (by norm_num) (by norm_num)).1, by simp only [Job.make]; rw [b2, hbeta],
        by simp only [Job.make]; rw [b2, hlx, hly], by simp only [Job.make]; rw [b2, hns], by simp only [Job.make]; rw [b2], ?_⟩
      simp only [Job.make]
      rw [hmax]
      exact ⟨b3.orders_pos, b3.size_pos, b3.fits, b3.cells, b3.perOrder⟩
    · simp only [Job.make] at q; rw [hr] at q; cases q
    · simp only [Job.make] at q; rw [hr] at q; cases q
  · have nb : ∀ (n : ℕ) (junk : ℕ → ℕ → Q), ∀ e ∈ newBundle n junk, e.used ≤ HISTORY := by
      intro n junk e he
      obtain ⟨i, -, rfl⟩ := List.mem_map.1 he
      exact Nat.zero_le _
    exact ⟨nb _ _, nb _ _, Nat.zero_le _, Nat.zero_le _, by simp only [Job.make]; rw [a2], by simp only [Job.make]; rw [a2],
      by simp only [Job.make]; rw [b2], by simp only [Job.make]; rw [b2]⟩

/-- A restarted process. -/
theorem Job.load_ok (hP : P₀.Wf) (hS : StartOk P₀) (ho : p.env.Ok P₀) (hs : p.env.Settled M p.bins) {f : ParaFile Q R} {s : Statis Q F}
    (k : p.save = .ok (some (f, s))) (h1 : fs.para = some f) (h2 : fs.statis = some s) (h0 : mem.diag.Fresh) {p' : Job Q F R}
    (hl : Job.load M mem fs = .ok p') (hn : LinesNonzero p'.env.chain.d) : p'.env.Ok P₀ ∧ p'.env.Settled M p'.bins := by
  obtain ⟨hpw, hi⟩ := ho.reach.inv hP hS
  have hγ := ho.reach.noGamma hP hS hs.run
  have e0 : fs.paraFile = .ok (f, true) := by unfold Disk.paraFile; rw [h1]
  have e1 : ∃ w P', fs.weights = some w ∧ fs.readGW w p.env.chain.P = .ok P' := by
    have hf : f.para = some p.para.toDict := by
      unfold Job.save Env.save at k
      rw [if_pos hγ, toDict_eq hi] at k
      simp only [Res.ok_bind] at k
      cases k
      rfl
    unfold Job.load at hl
    rw [e0, Res.ok_bind] at hl
    simp only at hl
    rw [hf] at hl
    simp only [need, Res.ok_bind] at hl
    rw [ParaMC.round_trip M.seeded (p := p.para) hpw.lt_max hpw.rw_len hs.temp, Res.ok_bind] at hl
    cases hw : fs.weights with
    | none => rw [hw] at hl; cases hl
    | some w =>
      rw [hw, h2] at hl
      simp only [Res.ok_bind] at hl
      obtain ⟨P', er, -⟩ := bind_eq_ok hl
      exact ⟨w, P', rfl, hs.read.symm.trans er⟩
  obtain ⟨w, P', hw, er⟩ := e1
  obtain ⟨d', mon', c1, c2, c3, c4, c5⟩ := Job.load_saved hP hS ho hs k h1 h2 h0 hw er
  rw [hl] at c2
  cases c2
  obtain ⟨ss, hb⟩ := readGW_ok er
  obtain ⟨g1, g2⟩ := readGW_gamma er
  refine ⟨⟨?_, c4, ?_⟩, ⟨ss.run.trans hs.run, ?_, g1.trans hs.gG, g2.trans hs.wG, ss.mod.trans hs.mod, ss.ph.trans hs.ph, c5⟩⟩
  · exact .restart p.env.chain P' _ mem.diag d' _ ho.reach (readGW_anneal hpw er) hγ (toDict_eq hi) h0 c1 hn
  · show P'.maxOrd + 1 ≤ p.env.timeRatio.length
    rw [ss.maxOrd]; exact ho.ratio
  · show p.env.temp = 1 / P'.beta
    rw [hb]; exact hs.temp

theorem Alive.ok (hn : ∀ a, near a a = true) (hP : P₀.Wf) (hS : StartOk P₀) (h : Alive M near P₀ p) :
    p.env.Ok P₀ ∧ p.env.Settled M p.bins := by
  induction h with
  | start mem fs p h0 hb hu hp hc => exact Job.buildNew_ok hP h0 hb hu hp hc
  | look p fs r _ hf hl ih => exact ⟨ih.1.look hn hP hS hf hl, ih.2.look hl⟩
  | toss p ws c _ hh ih => exact ⟨ih.1.toss hP hS hh, ih.2.toss hh⟩
  | run p n ts e _ hf hl ih => exact ⟨ih.1.loop hn hP hS hf hl, ih.2.loop hn hP hS ts n ih.1 hf hl⟩
  | rng p r _ ih => exact ih
  | restart p p' mem fs f s _ k h1 h2 h0 hl hz ih => exact Job.load_ok hP hS ih.1 ih.2 k h1 h2 h0 hl hz

/-! ### Equal processes look the same -/

variable {A : Prop} {ρ : Ren} {a b : Chain Q F} {e' : Env Q F}

theorem EnvSimOk.toss (hP : P₀.Wf) (hS : StartOk P₀) (s : EnvSimOk A ρ a b P₀ e e') (ws : List Words) :
    ∃ c c', hop e.chain ws = .ok c ∧ hop e'.chain ws = .ok c' ∧
      EnvSimOk A ρ a b P₀ { e with chain := c } { e' with chain := c' } := by
  obtain ⟨hw, hi⟩ := s.ok.reach.inv hP hS
  obtain ⟨c, c', h1, h2, T, -, -⟩ := hop_sim ws _ _ hw hi s.sim.chain
  have st := hop_stale ws hw hi s.sim.chain s.sim.stale h1 h2
  have p1 := hop_P h1
  have p2 := hop_P h2
  exact ⟨c, c', h1, h2, ⟨⟨s.sim.version, s.sim.temp, s.sim.timeRatio, by simp only; rw [p1, p2, s.sim.par], T, st,
    by simp only; rw [p1]; exact s.sim.mon⟩, s.ok.toss hP hS h1, s.ok'.toss hP hS h2⟩⟩

theorem EnvSimOk.tosses (hP : P₀.Wf) (hS : StartOk P₀) (toss : List (List Words)) : ∀ {e e' : Env Q F}, EnvSimOk A ρ a b P₀ e e' →
    ∃ c c', loopM hop e.chain toss = .ok c ∧ loopM hop e'.chain toss = .ok c' ∧
      EnvSimOk A ρ a b P₀ { e with chain := c } { e' with chain := c' } := by
  induction toss with
  | nil => intro e e' s; exact ⟨_, _, rfl, rfl, s⟩
  | cons ws toss ih =>
    intro e e' s
    obtain ⟨c, c', h1, h2, h3⟩ := s.toss hP hS ws
    obtain ⟨c2, c2', k1, k2, k3⟩ := ih h3
    refine ⟨c2, c2', ?_, ?_, k3⟩
    · unfold loopM; rw [h1, Res.ok_bind]; exact k1
    · unfold loopM; rw [h2, Res.ok_bind]; exact k2

theorem EnvSimOk.resume (hn : ∀ a, near a a = true) (hP : P₀.Wf) (hS : StartOk P₀) (s : EnvSimOk A ρ a b P₀ e e') {fs : MsgFiles Q F}
    {toss : List (List Words)} {ts : List (Tick Q F)} (hf : FairResume near e fs toss ts) (hA : A ∨ QuietResume e.version fs ts) :
    Res.Rel (EnvSimOk A ρ a b P₀) (e.resume near fs toss ts) (e'.resume near fs toss ts) := by
  have h1 := s.message hn hP hS hf.1 (hA.imp id fun q => q.1)
  have on : ∀ x : Env Q F, x.onMessage near (lookTick fs).message (lookTick fs).files = (listen near x fs >>= fun r => .ok r.2) := fun _ => rfl
  rw [on, on] at h1
  have rs : ∀ x : Env Q F, x.resume near fs toss ts = ((listen near x fs >>= fun r => .ok r.2) >>= fun y =>
      loopM hop y.chain toss >>= fun c => mainLoop near { y with chain := c } 0 ts) := by
    intro x
    unfold Env.resume
    cases listen near x fs <;> rfl
  rw [rs, rs]
  refine h1.bind fun y y' ky sy => ?_
  obtain ⟨c, c', k1, k2, k3⟩ := sy.1.tosses hP hS toss
  rw [k1, k2, Res.ok_bind, Res.ok_bind]
  obtain ⟨r, kr, ky⟩ := bind_eq_ok ky
  cases ky
  refine k3.loop hn hP hS ts 0 (hf.2 r c kr k1) (hA.imp id fun q t ht => ?_)
  show t.Quiet r.2.version
  rw [sy.2 q.1]
  exact q.2 t ht

theorem forall₂_sums {l l' : List (Est Q Q)} (h : List.Forall₂ EstSim l l') : l'.map Est.sums = l.map Est.sums := by
  induction h with
  | nil => rfl
  | cons a _ ih => simp only [List.map_cons, ih, Est.sums, a.1, a.2]

theorem HistoSim.seen {h h' : Histo Q F} (s : HistoSim A h h') : h'.seen = h.seen := by
  unfold Histo.seen
  rw [s.norm, s.normAccu, s.cells, s.perOrder]
  congr 1
  funext i
  split_ifs with q
  · exact s.data i q.1 q.2
  · rfl

theorem EnvSimOk.seen (hP : P₀.Wf) (hS : StartOk P₀) (s : EnvSimOk A ρ a b P₀ e e') (hc : b.counter = a.counter) : e'.seen = e.seen := by
  obtain ⟨-, hi⟩ := s.ok.reach.inv hP hS
  have h1 : e'.chain.counter = e.chain.counter := by
    have := s.sim.chain.counter
    rw [hc] at this
    omega
  unfold Env.seen
  rw [s.sim.version, s.sim.temp, s.sim.timeRatio, s.sim.par, h1, s.sim.chain.diag.toDict hi, s.sim.chain.diag.order,
    s.sim.chain.diag.weight, s.sim.chain.diag.phase, forall₂_sums s.sim.mon.wormE, forall₂_sums s.sim.mon.phyE, s.sim.mon.sigma.map,
    s.sim.mon.polar.map, s.sim.mon.sigma.est.seen, s.sim.mon.polar.est.seen, Est.sums, Est.sums, Est.sums, Est.sums,
    s.sim.mon.sigmaE.1, s.sim.mon.sigmaE.2, s.sim.mon.polarE.1, s.sim.mon.polarE.2]

theorem Res.Rel.image {α β : Type} {r : α → α → Prop} {x y : Res α} (h : Res.Rel r x y) {f : α → β} (hf : ∀ a b, r a b → f b = f a) :
    y.image f = x.image f := by
  cases x <;> cases y <;> first | rfl | exact h.elim | exact congrArg Res.ok (hf _ _ h)

end
end Feyn
