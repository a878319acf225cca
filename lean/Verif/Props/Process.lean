import Verif.Proof.Process

/-!
# A restarted process (C59)
-/

set_option linter.unusedSectionVars false

namespace Feyn

section
variable {Q F R : Type} [Field Q] [LinearOrder Q] [IsStrictOrderedRing Q] [FloorRing Q] [Field F] [StarRing F] [Algebra Q F]
  {M : Machine Q F R} {near : F → F → Bool} {P₀ : Params Q F} {p : Job Q F R} {fs : Disk Q F R} {mem : Memory Q F}

/-- **C59**, parameters: what `ParaMC::ToDict` writes, `ParaMC::FromDict` reads back, except for the seed. -/
theorem C59_para_round_trip (seeded : ℤ → R) {q : ParaMC Q R} (h1 : q.order < MAX_ORDER) (h2 : q.order + 1 ≤ q.orderRW.length)
    (h3 : q.temp = 1 / q.beta) : ParaMC.fromDict seeded q.toDict = .ok { q with seed := 0 } :=
  ParaMC.round_trip seeded h1 h2 h3

/-- **C59**: whatever a process has been through (start, messages, sweeps, restarts), it is consistent. -/
theorem C59_alive (hn : ∀ a, near a a = true) (hP : P₀.Wf) (hS : StartOk P₀) (h : Alive M near P₀ p) :
    p.env.Ok P₀ ∧ p.env.chain.P.runGamma3 = false ∧ p.env.temp = 1 / p.env.chain.P.beta := by
  obtain ⟨h1, h2⟩ := h.ok hn hP hS
  exact ⟨h1, h2.run, h2.temp⟩

/-- Saving never fails. -/
theorem C59_save (hn : ∀ a, near a a = true) (hP : P₀.Wf) (hS : StartOk P₀) (h : Alive M near P₀ p) :
    ∃ f s, p.save = .ok (some (f, s)) := by
  obtain ⟨h1, h2⟩ := h.ok hn hP hS
  unfold Job.save Env.save
  rw [if_pos (h1.reach.noGamma hP hS h2.run), toDict_eq (h1.reach.inv hP hS).2]
  exact ⟨_, _, rfl⟩

theorem restart_sim (hn : ∀ a, near a a = true) (hP : P₀.Wf) (hS : StartOk P₀) (h : Alive M near P₀ p) (hx : p.env.chain.d.order ≠ 0)
    {f : ParaFile Q R} {s : Statis Q F} (k : p.save = .ok (some (f, s))) (h1 : fs.para = some f) (h2 : fs.statis = some s)
    (hc : fs.Current p.env) (h0 : mem.diag.Fresh) :
    ∃ p' ρ, Job.load M mem fs = .ok p' ∧ p'.para = { p.para with seed := 0 } ∧
      EnvSimOk p.env.SameBeta ρ p.env.chain p'.env.chain P₀ p.env p'.env ∧ LinesNonzero p'.env.chain.d := by
  obtain ⟨ho, hs⟩ := h.ok hn hP hS
  obtain ⟨hpw, hi⟩ := ho.reach.inv hP hS
  have hγ := ho.reach.noGamma hP hS hs.run
  obtain ⟨w, hw, hr⟩ := hc
  obtain ⟨d', mon', c1, c2, c3, c4, c5⟩ := Job.load_saved hP hS ho hs k h1 h2 h0 hw hr
  obtain ⟨d2, q1, hR⟩ := load_relabeled p.env.chain.P hi hγ h0
  rw [c1] at q1
  cases q1
  have hR' := hR.of_fixed hi hγ hx
  have hnz : LinesNonzero d' := hR'.nonzero' hi.count.gWf hi.count.wWf ⟨hi.line.g_ne, hi.line.w_ne⟩
  have S := hR'.alike hi hγ
  refine ⟨_, hi.ren, c2, rfl, ⟨⟨rfl, rfl, rfl, rfl, ?_, ?_, ?_⟩, ho, ?_⟩, hnz⟩
  · exact .of_alike (.refl _) S
  · cases hx : p.env.chain.d.worm.exist with
    | true => exact ⟨.inr (S.ira hx), .inr (S.masha hx)⟩
    | false =>
      obtain ⟨a, b⟩ := load_pointers hi h0 hx c1
      exact ⟨.inl (le_of_eq a.symm), .inl (le_of_eq b.symm)⟩
  · rw [hs.run]; exact c3
  · exact (Job.load_ok hP hS ho hs k h1 h2 h0 c2 hnz).1

/-- **C59.** Save a process in a state of order at least one, and start a new process from the files, whatever its memory contains, with a
weight file that holds the tables in use. Loading succeeds, gives all parameters and the state of the random number generator back
(the seed is not needed any more), and the new process looks like the old one: statistics, diagram, parameters. If from then on both
get the same messages and random words they keep looking the same, in the main loop (from any step) and in the whole second part
of `MonteCarlo`; both succeed or both end at the same point. Either the histograms have to be allocated for the present temperature
(no message has changed it since the start), or the temperature must not change any more. Missing from the property as stated: states of
order zero (`C59_refuted_order_zero`), changes of the temperature before and after the restart (`C59_refuted_anneal`), and processes that
simulate three-point functions, which start with undefined behaviour (`C59_gamma`). -/
theorem C59_restart_partial (hn : ∀ a, near a a = true) (hP : P₀.Wf) (hS : StartOk P₀) (h : Alive M near P₀ p)
    (hx : p.env.chain.d.order ≠ 0) {f : ParaFile Q R} {s : Statis Q F} (k : p.save = .ok (some (f, s))) (h1 : fs.para = some f)
    (h2 : fs.statis = some s) (hc : fs.Current p.env) (h0 : mem.diag.Fresh) :
    ∃ p', Job.load M mem fs = .ok p' ∧ p'.para = { p.para with seed := 0 } ∧ p'.env.seen = p.env.seen ∧ Alive M near P₀ p' ∧
      (∀ n ts, FairRun near p.env n ts → (p.env.SameBeta ∨ ∀ t ∈ ts, t.Quiet p.env.version) →
        (mainLoop near p'.env n ts).image Env.seen = (mainLoop near p.env n ts).image Env.seen) ∧
      ∀ ms toss ts, FairResume near p.env ms toss ts → (p.env.SameBeta ∨ QuietResume p.env.version ms ts) →
        (p'.env.resume near ms toss ts).image Env.seen = (p.env.resume near ms toss ts).image Env.seen := by
  obtain ⟨p', ρ, k1, k2, k3, k4⟩ := restart_sim hn hP hS h hx k h1 h2 hc h0
  have hcnt : p'.env.chain.counter = p.env.chain.counter := congrArg ParaMC.counter k2
  refine ⟨p', k1, k2, k3.seen hP hS hcnt, .restart p p' mem fs f s h k h1 h2 h0 k1 k4, fun n ts hf hA => ?_, fun ms toss ts hf hA => ?_⟩
  · exact (k3.loop hn hP hS ts n hf hA).image fun a b r => r.seen hP hS hcnt
  · exact (k3.resume hn hP hS hf hA).image fun a b r => r.seen hP hS hcnt

/-- The main loop looks at its step only modulo 100, until the 32-bit counter overflows. -/
theorem mainLoop_shift (ts : List (Tick Q F)) : ∀ (e : Env Q F) (n m : ℕ), n % 100 = m % 100 → n + ts.length < 4294967296 →
    m + ts.length < 4294967296 → mainLoop near e n ts = mainLoop near e m ts := by
  induction ts with
  | nil => intro e n m _ _ _; rfl
  | cons t ts ih =>
    intro e n m h h1 h2
    simp only [List.length_cons] at h1 h2
    have hs : mainStep near e (n + 1) t = mainStep near e (m + 1) t := by
      have : (n + 1) % 4294967296 % 100 = (m + 1) % 4294967296 % 100 := by omega
      unfold mainStep
      rw [this]
    unfold mainLoop
    rw [hs]
    refine congrArg _ (funext fun x => ih x _ _ (by omega) (by omega) (by omega))

/-- Old messages are fair. -/
theorem fair_of_quiet {bins : ℕ} (hn : ∀ a, near a a = true) (hP : P₀.Wf) (hS : StartOk P₀) (ts : List (Tick Q F)) :
    ∀ {e : Env Q F} (n : ℕ), e.Ok P₀ → e.Settled M bins → (∀ t ∈ ts, t.Quiet e.version) → FairRun near e n ts := by
  induction ts with
  | nil => intro e n _ _ _; trivial
  | cons t ts ih =>
    intro e n ho hs hq
    have one : ∀ e1 e2, e.sweep t.words = .ok e1 → e1.onPrint near t.print = .ok e2 → t.Fair e2 := by
      intro e1 e2 k1 k2 _
      obtain ⟨c, mon, q1, -, -, q2, -⟩ := sweep_ok hP hS ho t.words
      rw [q2] at k1
      cases k1
      have hp : c.P.runGamma3 = false := by rw [hop_P q1]; exact hs.run
      unfold Env.onPrint at k2
      split_ifs at k2
      · unfold Env.print at k2
        obtain ⟨g, -, k2⟩ := bind_eq_ok k2
        split_ifs at k2
        obtain ⟨P', k3, k2⟩ := bind_eq_ok k2
        cases k2
        exact ⟨.inl (by obtain ⟨_, _, _, _, _, -, rfl⟩ := printReweight_model k3; exact hp), .inl (hq t (by simp))⟩
      · cases k2
        exact ⟨.inl hp, .inl (hq t (by simp))⟩
    refine ⟨one, fun x k => ?_⟩
    have := ho.sim.step hn hP hS (n + 1) one (.inl trivial)
    rw [k] at this
    refine ih (n + 1) this.1.ok (hs.step hn hP hS ho one k) fun t' ht' => ?_
    rw [this.2 (hq t (by simp))]
    exact hq t' (by simp [ht'])

/-- **C59**, the whole program: if no sweeps are thrown away (`Toss` is zero) and no message is newer, the restarted process, which
begins to count its steps anew, does exactly what the old one would have done. The old one saves only after multiples of 100 steps. -/
theorem C59_continues_partial (hn : ∀ a, near a a = true) (hP : P₀.Wf) (hS : StartOk P₀) (h : Alive M near P₀ p)
    (hx : p.env.chain.d.order ≠ 0) {f : ParaFile Q R} {s : Statis Q F} (k : p.save = .ok (some (f, s))) (h1 : fs.para = some f)
    (h2 : fs.statis = some s) (hc : fs.Current p.env) (h0 : mem.diag.Fresh) :
    ∃ p', Job.load M mem fs = .ok p' ∧ p'.rng = p.rng ∧
      ∀ ms ts n, n % 100 = 0 → n + ts.length < 4294967296 → QuietResume p.env.version ms ts →
        (p'.env.resume near ms [] ts).image Env.seen = (mainLoop near p.env n ts).image Env.seen := by
  obtain ⟨p', k1, k2, k3, -, -, k5⟩ := C59_restart_partial hn hP hS h hx k h1 h2 hc h0
  obtain ⟨ho, hs⟩ := h.ok hn hP hS
  refine ⟨p', k1, congrArg ParaMC.rng k2, fun ms ts n hm hl hq => ?_⟩
  obtain ⟨b, e1⟩ : ∃ b, listen near p.env ms = .ok (b, p.env) := by
    have := quiet_ok (near := near) (e := p.env) (t := lookTick ms) (fun _ => .inl hs.run) hq.1
    have this : (listen near p.env ms >>= fun r => .ok r.2) = .ok p.env := this
    obtain ⟨r, r1, r2⟩ := bind_eq_ok this
    refine ⟨r.1, ?_⟩
    rw [r1, ← (Res.ok.inj r2 : r.2 = p.env)]
  have e2 : p.env.resume near ms [] ts = mainLoop near p.env 0 ts := by
    unfold Env.resume
    rw [e1]
    rfl
  rw [k5 ms [] ts ⟨fun _ => ⟨.inl hs.run, .inl hq.1⟩, ?_⟩ (.inr hq), e2, mainLoop_shift ts p.env n 0 hm hl (by omega)]
  intro r c hr hc
  rw [e1] at hr
  cases hr
  cases hc
  exact fair_of_quiet hn hP hS ts 0 ho hs hq.2

/-- **C59**, files: without a statistics file a process cannot be restarted, even if its parameter file is missing as well and it would have to
start from scratch. -/
theorem C59_refuted_no_statistics (h : fs.statis = none) (p' : Job Q F R) : Job.load M mem fs ≠ .ok p' := by
  intro k
  unfold Job.load at k
  obtain ⟨_, -, k⟩ := bind_eq_ok k
  obtain ⟨_, -, k⟩ := bind_eq_ok k
  obtain ⟨_, -, k⟩ := bind_eq_ok k
  obtain ⟨_, -, k⟩ := bind_eq_ok k
  rw [h] at k
  cases k

/-- **C59**: a process that simulates three-point functions never gets through its start, be it new or restarted: the constructor of
`Weight` leaves two pointers uninitialised that are tested later. -/
theorem C59_gamma (p' : Job Q F R) (h : Job.buildNew M mem fs = .ok p' ∨ Job.load M mem fs = .ok p') : p'.env.chain.P.runGamma3 = false := by
  rcases h with h | h
  · unfold Job.buildNew at h
    obtain ⟨_, -, h⟩ := bind_eq_ok h
    obtain ⟨_, -, h⟩ := bind_eq_ok h
    obtain ⟨q, -, h⟩ := bind_eq_ok h
    obtain ⟨_, -, h⟩ := bind_eq_ok h
    obtain ⟨P, er, h⟩ := bind_eq_ok h
    have := (readGW_ok er).1.run
    split_ifs at h with hr ho
    · obtain ⟨_, -, h⟩ := bind_eq_ok h
      cases h
    · obtain ⟨_, -, h⟩ := bind_eq_ok h
      obtain ⟨_, -, h⟩ := bind_eq_ok h
      obtain ⟨_, -, h⟩ := bind_eq_ok h
      obtain ⟨_, -, h⟩ := bind_eq_ok h
      cases h
      exact this.trans (Bool.eq_false_iff.2 hr)
  · unfold Job.load at h
    obtain ⟨_, -, h⟩ := bind_eq_ok h
    obtain ⟨_, -, h⟩ := bind_eq_ok h
    obtain ⟨q, -, h⟩ := bind_eq_ok h
    obtain ⟨_, -, h⟩ := bind_eq_ok h
    obtain ⟨_, -, h⟩ := bind_eq_ok h
    obtain ⟨P, er, h⟩ := bind_eq_ok h
    have := (readGW_ok er).1.run
    iterate 7 obtain ⟨_, -, h⟩ := bind_eq_ok h
    split_ifs at h with hr
    obtain ⟨_, -, h⟩ := bind_eq_ok h
    obtain ⟨_, -, h⟩ := bind_eq_ok h
    cases h
    exact this.trans (Bool.eq_false_iff.2 hr)

/-- **C59**, new processes: the histograms of a new process are empty, whatever its memory contained. -/
theorem C59_fresh (h : Job.buildNew M mem fs = .ok p) :
    (p.env.mon.sigma.est.normAccu = 0 ∧ ∀ i, 0 ≤ i → i < p.env.mon.sigma.est.cells → p.env.mon.sigma.est.data i = 0) ∧
      p.env.mon.polar.est.normAccu = 0 ∧ ∀ i, 0 ≤ i → i < p.env.mon.polar.est.cells → p.env.mon.polar.est.data i = 0 := by
  unfold Job.buildNew at h
  iterate 5 obtain ⟨_, -, h⟩ := bind_eq_ok h
  split_ifs at h
  · obtain ⟨_, -, h⟩ := bind_eq_ok h
    cases h
  · iterate 4 obtain ⟨_, -, h⟩ := bind_eq_ok h
    cases h
    exact ⟨⟨rfl, fun i h0 h1 => if_pos ⟨h0, h1⟩⟩, rfl, fun i h0 h1 => if_pos ⟨h0, h1⟩⟩

/-- **C59**, files: a process does not take over histograms of another lattice or with another number of time bins. -/
theorem C59_shape (h : Job.load M mem fs = .ok p) : ∃ st x y a b, fs.statis = some st ∧ st.sigma = some x ∧ st.polar = some y ∧ x.array = some a ∧ y.array = some b ∧
    a.2.1 = [2, (p.para.nsub : ℤ), 2, (p.para.nsub : ℤ), (p.para.lx : ℤ) * p.para.ly, (p.para.bins : ℤ)] ∧
      b.2.1 = [4, (p.para.nsub : ℤ), 4, (p.para.nsub : ℤ), (p.para.lx : ℤ) * p.para.ly, (p.para.bins : ℤ)] := by
  have need_ok : ∀ {α : Type} {x : Option α} {a : α}, need x = .ok a → x = some a := by
    intro α x a q
    cases x with
    | none => cases q
    | some b => cases q; rfl
  have shape : ∀ {s t : Measured Q F} {x : HistoDict Q F}, s.fromDict x = .ok t → ∃ a, x.array = some a ∧ a.2.1 = s.map.smoothShape := by
    intro s t x q
    unfold Measured.fromDict at q
    obtain ⟨_, -, q⟩ := bind_eq_ok q
    obtain ⟨_, -, q⟩ := bind_eq_ok q
    obtain ⟨a, ea, q⟩ := bind_eq_ok q
    split_ifs at q with c1 c2
    exact ⟨a, need_ok ea, not_not.1 c2⟩
  have alloc : ∀ {q : ParaMC Q R} {sp sym : ℤ} {junk : ℤ → F} {s : Measured Q F}, Measured.allocate q sp sym junk = .ok s →
      s.map.smoothShape = [sp, (q.nsub : ℤ), sp, (q.nsub : ℤ), (q.lx : ℤ) * q.ly, (q.bins : ℤ)] := by
    intro q sp sym junk s e
    unfold Measured.allocate at e
    obtain ⟨_, -, e⟩ := bind_eq_ok e
    cases e
    simp [IndexMap.smoothShape, latVol]
  unfold Job.load at h
  obtain ⟨_, -, h⟩ := bind_eq_ok h
  obtain ⟨_, -, h⟩ := bind_eq_ok h
  obtain ⟨q, -, h⟩ := bind_eq_ok h
  obtain ⟨_, -, h⟩ := bind_eq_ok h
  obtain ⟨st, e1, h⟩ := bind_eq_ok h
  obtain ⟨P, er, h⟩ := bind_eq_ok h
  obtain ⟨_, -, h⟩ := bind_eq_ok h
  obtain ⟨s, e2, h⟩ := bind_eq_ok h
  obtain ⟨t, e3, h⟩ := bind_eq_ok h
  obtain ⟨x, e4, h⟩ := bind_eq_ok h
  obtain ⟨_, e5, h⟩ := bind_eq_ok h
  obtain ⟨y, e6, h⟩ := bind_eq_ok h
  obtain ⟨_, e7, h⟩ := bind_eq_ok h
  split_ifs at h
  obtain ⟨_, -, h⟩ := bind_eq_ok h
  obtain ⟨_, -, h⟩ := bind_eq_ok h
  cases h
  obtain ⟨a, a1, a2⟩ := shape e5
  obtain ⟨b, b1, b2⟩ := shape e7
  obtain ⟨ss, -⟩ := readGW_ok er
  have hlx : P.lx = q.lx := ss.lx
  have hly : P.ly = q.ly := ss.ly
  have hns : P.nsub = q.nsub := ss.nsub
  refine ⟨st, x, y, a, b, need_ok e1, need_ok e4, need_ok e6, a1, b1, ?_, ?_⟩
  · rw [a2, alloc e2]
    simp only [Job.para, Job.make, hlx, hly, hns]
  · rw [b2, alloc e3]
    simp only [Job.para, Job.make, hlx, hly, hns]

end

/-! ### Examples and findings -/

local instance procStar : StarRing ℚ := starRingOfComm

/-- Exact arithmetic; the state of the generator is an integer. -/
def demoMachine : Machine ℚ ℚ ℤ := ⟨AbsoluteValue.abs, ratPhase, id⟩

/-- Memory in which the example process starts. -/
def demoMemory : Memory ℚ ℚ :=
  ⟨demoRaw, fun _ _ => 5, fun _ _ => 5, fun _ => 5, fun _ => 5, fun _ => 5, fun _ => 5, fun _ => 5, fun _ => 5⟩

/-- Parameters of the example process. -/
def demoPara : ParaMC ℚ ℤ where
  version := 0
  beta := 1
  temp := 1
  bins := 2
  binsTiny := 1
  order := 3
  nsub := 1
  lx := 2
  ly := 2
  counter := 0
  toss := 10
  sweep := 10
  seed := 7
  rng := 7
  wormRW := 1
  polarRW := 1
  runGamma3 := false
  gammaGRW := 1
  gammaWRW := 1
  orderRW := [1, 1, 1, 1]
  timeRatio := [1, 1, 1, 1]
  printer := 10
  writer := 10
  message := 10
  reweight := 10

/-- Weight file with constant tables. -/
def demoGW : WeightFile ℚ ℚ := ⟨some fun _ => demoTables 1, none, none⟩

/-- Files of the user: parameters, weights, and basis files for `beta`. -/
def demoDisk (beta : ℚ) : Disk ℚ ℚ ℤ := ⟨none, some ⟨some demoPara.toDict, none⟩, some demoGW, none, some beta, some beta⟩

/-- Parameters of the chain at the start. -/
def demoP0 : Params ℚ ℚ :=
  { (demoPara.params demoMachine : Params ℚ ℚ) with
    gMeasT := fun _ _ _ _ _ _ => 1, gSmoothT := fun _ _ _ _ _ _ => 1, wMeasT := fun _ _ _ _ _ _ => 1, wDeltaT := fun _ _ _ _ => 1,
    wMeasDeltaT := fun _ _ _ _ => 1, wSmoothT := fun _ _ _ _ _ _ => 1 }

theorem demoP0_wf : demoP0.Wf := by constructor <;> simp [demoP0, demoPara, ParaMC.params, normWeight]
theorem demoP0_start : StartOk demoP0 := by constructor <;> simp [demoP0, demoPara, ParaMC.params, SiteIn, startSite]

/-- A new message of version `v` that changes `beta`. -/
def demoNews (v : ℤ) (beta : ℚ) : MsgFiles ℚ ℚ := ⟨some (MessageDict.full ⟨v, beta, 1⟩), some demoGW, some beta, some beta⟩

/-- A pass of the main loop with one hop in which no timer has run out. -/
def demoPass (w : Words) : Tick ℚ ℚ := ⟨[w], false, false, false, false, demoNews 0 1⟩

/-- A decidable form of `Tick.Fair` for a new message of the example. -/
def newsTest (v : ℤ) (beta : ℚ) (e : Env ℚ ℚ) : Bool :=
  decide (e.chain.P.runGamma3 = false ∧ e.chain.P.beta ≤ beta ∧
    (e.chain.d.worm.exist = true ∨ e.chain.d.worm.ira ∉ e.chain.d.Ver.live ∧ e.chain.d.worm.masha ∉ e.chain.d.Ver.live)) &&
  (readGW (demoNews v beta) demoGW { e.chain.P with beta := beta } >>= fun P' => fixDiagram P' e.chain.d).test fun d' =>
    decide ((∀ g ∈ d'.G.live, d'.wt.gWt g ≠ 0) ∧ ∀ w ∈ d'.W.live, d'.wt.wWt w ≠ 0)

theorem newsTest_ok {e : Env ℚ ℚ} {v : ℤ} {beta : ℚ} (h : newsTest v beta e = true) : (lookTick (demoNews v beta)).Fair e := by
  unfold newsTest at h
  simp only [Bool.and_eq_true, decide_eq_true_eq] at h
  obtain ⟨⟨h1, h2, h3⟩, h4⟩ := h
  intro _
  refine ⟨.inl h1, .inr ⟨⟨v, beta, 1⟩, demoGW, rfl, rfl, h1, h2, by norm_num, h3, ?_⟩⟩
  intro P' d' k1 k2
  have k1' : readGW (demoNews v beta) demoGW { e.chain.P with beta := beta } = .ok P' := k1
  rw [k1', Res.ok_bind, k2] at h4
  simpa [Res.test, LinesNonzero] using h4

theorem fair_pass (ws : List Words) : ∀ (e : Env ℚ ℚ) (n : ℕ), FairRun nearQ e n (ws.map demoPass) := by
  induction ws with
  | nil => intro e n; trivial
  | cons w ws ih => intro e n; exact ⟨fun _ _ _ _ => nofun, fun e' _ => ih e' _⟩

/-- The new process followed by some passes of the main loop. -/
def demoProc (ws : List Words) : Res (Job ℚ ℚ ℤ) := do
  let p ← Job.buildNew demoMachine demoMemory (demoDisk 1)
  let e ← mainLoop nearQ p.env 0 (ws.map demoPass)
  .ok { p with env := e }

theorem demoStart_ok {q : Job ℚ ℚ ℤ} (h1 : Job.buildNew demoMachine demoMemory (demoDisk 1) = .ok q) :
    q.env.chain.P = demoP0 ∧ q.env.chain.counter = 0 ∧ q.para.Usable := by
  have e0 : ParaMC.fromDict id demoPara.toDict = .ok { demoPara with seed := 0 } :=
    ParaMC.round_trip id (by decide) (by decide) (by norm_num [demoPara])
  have e1 : (demoDisk 1).readGW demoGW (ParaMC.params demoMachine { demoPara with seed := 0 }) = .ok demoP0 := by
    unfold Disk.readGW Feyn.readGW
    have : loadBasis (some (1 : ℚ)) (1 : ℚ) = .ok () := by unfold loadBasis; simp
    show (loadBasis (some (1 : ℚ)) (1 : ℚ) >>= fun _ => loadBasis (some (1 : ℚ)) (1 : ℚ) >>= fun _ => _) = _
    rw [this, Res.ok_bind, Res.ok_bind]
    rfl
  unfold Job.buildNew at h1
  have i1 : need (demoDisk 1).input = .ok ⟨some demoPara.toDict, none⟩ := rfl
  rw [i1, Res.ok_bind] at h1
  simp only [need, Res.ok_bind] at h1
  have i3 : ParaMC.fromDict demoMachine.seeded demoPara.toDict = .ok { demoPara with seed := 0 } := e0
  rw [i3, Res.ok_bind] at h1
  simp only [demoDisk, Res.ok_bind] at h1
  have e1' : Disk.readGW (⟨none, some ⟨some demoPara.toDict, none⟩, some demoGW, none, some 1, some 1⟩ : Disk ℚ ℚ ℤ) demoGW
    (ParaMC.params demoMachine { demoPara with seed := 0 }) = .ok demoP0 := e1
  rw [e1', Res.ok_bind, if_neg (by decide)] at h1
  obtain ⟨_, -, h1⟩ := bind_eq_ok h1
  rw [if_neg (by decide)] at h1
  obtain ⟨_, -, h1⟩ := bind_eq_ok h1
  obtain ⟨_, -, h1⟩ := bind_eq_ok h1
  obtain ⟨_, -, h1⟩ := bind_eq_ok h1
  cases h1
  exact ⟨rfl, rfl, by constructor <;> norm_num [Job.para, Job.make, demoPara, demoP0, ParaMC.params]⟩

theorem demoProc_alive {ws : List Words} {p : Job ℚ ℚ ℤ} (h : demoProc ws = .ok p) : Alive demoMachine nearQ demoP0 p := by
  unfold demoProc at h
  obtain ⟨q, h1, h⟩ := bind_eq_ok h
  obtain ⟨e, h2, h⟩ := bind_eq_ok h
  cases h
  have hq := demoStart_ok h1
  exact .run q 0 _ e (.start demoMemory _ q demoRaw_fresh h1 hq.2.2 hq.1 hq.2.1) (fair_pass ws _ _) h2

theorem pass_P {ws : List Words} : ∀ {e x : Env ℚ ℚ} {n : ℕ}, mainLoop nearQ e n (ws.map demoPass) = .ok x → x.chain.P = e.chain.P := by
  induction ws with
  | nil => intro e x n h; cases h; rfl
  | cons w ws ih =>
    intro e x n h
    simp only [List.map_cons] at h
    unfold mainLoop at h
    obtain ⟨y, h1, h⟩ := bind_eq_ok h
    rw [ih h]
    unfold mainStep at h1
    obtain ⟨z, h2, h1⟩ := bind_eq_ok h1
    have hz : z.chain.P = e.chain.P := by
      unfold Env.sweep at h2
      obtain ⟨c, k1, h2⟩ := bind_eq_ok h2
      obtain ⟨m, -, h2⟩ := bind_eq_ok h2
      split_ifs at h2
      cases h2
      exact hop_P k1
    split_ifs at h1
    · cases h1; exact hz
    · cases h1; exact hz

/-- The files after the process has been saved. -/
def savedDisk (beta : ℚ) (x : ParaFile ℚ ℤ × Statis ℚ ℚ) : Disk ℚ ℚ ℤ := { demoDisk beta with para := some x.1, statis := some x.2 }

/-- The weight file of the example is current as long as no table was changed. -/
theorem demo_current {e : Env ℚ ℚ} {beta : ℚ} {x : ParaFile ℚ ℤ × Statis ℚ ℚ} {P : Params ℚ ℚ} {fm : MsgFiles ℚ ℚ}
    (h : readGW fm demoGW P = .ok e.chain.P) (hb : e.chain.P.beta = beta) : (savedDisk beta x).Current e := by
  refine ⟨demoGW, rfl, ?_⟩
  have h2 := (readGW_ok h).2
  unfold readGW at h
  obtain ⟨_, -, h⟩ := bind_eq_ok h
  obtain ⟨_, -, h⟩ := bind_eq_ok h
  have hl : loadBasis (some beta) e.chain.P.beta = .ok () := by unfold loadBasis; rw [hb]; simp
  unfold Disk.readGW Feyn.readGW
  show (loadBasis (some beta) e.chain.P.beta >>= fun _ => loadBasis (some beta) e.chain.P.beta >>= fun _ => _) = _
  rw [hl, Res.ok_bind, Res.ok_bind]
  have h' := Res.ok.inj h
  simp only [demoGW]
  rw [← h']

/-- The hypotheses of `C59_restart_partial` and `C59_continues_partial` are met: a process that has measured its normalisation once and
went back to order one. Its histograms are allocated for the present temperature. -/
example : ∃ (p : Job ℚ ℚ ℤ) (f : ParaFile ℚ ℤ) (s : Statis ℚ ℚ), Alive demoMachine nearQ demoP0 p ∧ p.env.chain.d.order ≠ 0 ∧
    p.env.mon.sigma.est.normAccu = 1 ∧ p.save = .ok (some (f, s)) ∧ (savedDisk 1 (f, s)).Current p.env ∧ p.env.SameBeta ∧
    p.env.seen.phy.length = 4 := by
  have t : (demoProc [goZero, goOne]).test (fun p => decide (p.env.chain.d.order ≠ 0 ∧ p.env.mon.sigma.est.normAccu = 1 ∧
      (p.env.mon.sigma.est.beta = p.env.chain.P.beta ∧ p.env.mon.polar.est.beta = p.env.chain.P.beta) ∧ p.env.chain.P.beta = 1 ∧
      p.env.mon.phyE.length = 4)) = true := by decide +kernel
  obtain ⟨p, h, t⟩ := Res.test_ok t
  have t := of_decide_eq_true t
  have ha := demoProc_alive h
  obtain ⟨f, s, k⟩ := C59_save nearQ_refl demoP0_wf demoP0_start ha
  refine ⟨p, f, s, ha, t.1, t.2.1, k, ?_, t.2.2.1, by show (p.env.mon.phyE.map Est.sums).length = 4; rw [List.length_map]; exact t.2.2.2.2⟩
  have hP : p.env.chain.P = demoP0 := by
    unfold demoProc at h
    obtain ⟨q, h1, h⟩ := bind_eq_ok h
    obtain ⟨e, h2, h⟩ := bind_eq_ok h
    cases h
    rw [pass_P h2]
    exact (demoStart_ok h1).1
  have hr : readGW (demoNews 0 1) demoGW demoP0 = .ok demoP0 := by
    unfold Feyn.readGW
    have : loadBasis (some (1 : ℚ)) (1 : ℚ) = .ok () := by unfold loadBasis; simp
    show (loadBasis (some (1 : ℚ)) (1 : ℚ) >>= fun _ => loadBasis (some (1 : ℚ)) (1 : ℚ) >>= fun _ => _) = _
    rw [this, Res.ok_bind, Res.ok_bind]
    rfl
  exact demo_current (P := demoP0) (fm := demoNews 0 1) (by rw [hP]; exact hr) t.2.2.2.1

/-- **C59**, finding: the temperature for which a histogram was allocated is not updated by a message, but a restarted process allocates its
histograms for the present one. After a message, a restart and another message the normalisation of the two differ: 64 times the
original one in the old process, 16 times in the restarted one (which is right, see C34). -/
theorem C59_refuted_anneal : ∃ (p p' : Job ℚ ℚ ℤ) (f : ParaFile ℚ ℤ) (s : Statis ℚ ℚ) (r r' : Bool × Env ℚ ℚ),
    Alive demoMachine nearQ demoP0 p ∧ p.env.chain.d.order ≠ 0 ∧ p.save = .ok (some (f, s)) ∧ (savedDisk 2 (f, s)).Current p.env ∧
    Job.load demoMachine demoMemory (savedDisk 2 (f, s)) = .ok p' ∧ p'.env.seen = p.env.seen ∧
    (lookTick (demoNews 5 4)).Fair p.env ∧ listen nearQ p.env (demoNews 5 4) = .ok r ∧ listen nearQ p'.env (demoNews 5 4) = .ok r' ∧
    r.2.mon.sigma.est.normAccu = 64 ∧ r'.2.mon.sigma.est.normAccu = 16 := by
  have t : (demoProc [goZero, goOne] >>= fun p => listen nearQ p.env (demoNews 1 2) >>= fun r => .ok (p, r)).test (fun x =>
      newsTest 1 2 x.1.env && newsTest 5 4 x.2.2 && decide (x.2.1 = true ∧ x.2.2.chain.d.order ≠ 0) &&
      (Job.save { x.1 with env := x.2.2 } >>= fun y => need y >>= fun y => Job.load demoMachine demoMemory (savedDisk 2 y) >>= fun p' =>
        listen nearQ x.2.2 (demoNews 5 4) >>= fun r => listen nearQ p'.env (demoNews 5 4) >>= fun r' => .ok (r.2, r'.2)).test
      fun r => decide (r.1.mon.sigma.est.normAccu = 64 ∧ r.2.mon.sigma.est.normAccu = 16)) = true := by decide +kernel
  obtain ⟨x, h, t⟩ := Res.test_ok t
  obtain ⟨p, h1, h⟩ := bind_eq_ok h
  obtain ⟨r, h2, h⟩ := bind_eq_ok h
  cases h
  simp only [Bool.and_eq_true, decide_eq_true_eq] at t
  obtain ⟨⟨⟨t1, t2⟩, t3, t4⟩, t5⟩ := t
  have ha : Alive demoMachine nearQ demoP0 { p with env := r.2 } := .look p _ r (demoProc_alive h1) (newsTest_ok t1) h2
  obtain ⟨f, s, k⟩ := C59_save nearQ_refl demoP0_wf demoP0_start ha
  have hc : (savedDisk 2 (f, s)).Current r.2 := by
    have hr : r = (true, r.2) := by rw [← t3]
    rw [hr] at h2
    have hrun := (C59_alive nearQ_refl demoP0_wf demoP0_start (demoProc_alive h1)).2.1
    rw [listen_of (.inl hrun)] at h2
    have hm : loadMessage (demoNews 1 2).message = .ok (some ⟨1, 2, 1⟩) := rfl
    rw [hm, Res.ok_bind] at h2
    simp only at h2
    split_ifs at h2
    · cases h2
    have hw : (demoNews 1 2).weights = some demoGW := rfl
    rw [hw] at h2
    obtain ⟨y, k1, h2⟩ := bind_eq_ok h2
    cases h2
    have hb := (applyMessage_ok k1).2.1
    unfold applyMessage at k1
    simp only at k1
    obtain ⟨P1, k2, k1⟩ := bind_eq_ok k1
    rw [if_neg (by rw [(readGW_ok k2).1.run]; simp [hrun])] at k1
    obtain ⟨P2, k3, k1⟩ := bind_eq_ok k1
    cases k3
    obtain ⟨_, -, k1⟩ := bind_eq_ok k1
    obtain ⟨_, -, k1⟩ := bind_eq_ok k1
    obtain ⟨_, -, k1⟩ := bind_eq_ok k1
    split_ifs at k1
    have hk := Res.ok.inj k1
    have hk : P1 = r.2.chain.P := by rw [← hk]
    rw [hk] at k2
    exact demo_current (fm := demoNews 1 2) k2 hb
  obtain ⟨p', k1, k2, k3, -⟩ := C59_restart_partial nearQ_refl demoP0_wf demoP0_start ha t4 k rfl rfl hc (mem := demoMemory) demoRaw_fresh
  have k' : Job.save { p with env := r.2 } = .ok (some (f, s)) := k
  rw [k', Res.ok_bind] at t5
  simp only [need, Res.ok_bind] at t5
  rw [k1, Res.ok_bind] at t5
  obtain ⟨z, t5, t6⟩ := Res.test_ok t5
  obtain ⟨q, j1, t5⟩ := bind_eq_ok t5
  obtain ⟨q', j2, t5⟩ := bind_eq_ok t5
  cases t5
  have t6 := of_decide_eq_true t6
  exact ⟨_, p', f, s, q, q', ha, t4, k, hc, k1, k3, newsTest_ok t2, j1, j2, t6.1, t6.2⟩

/-- **C59**, finding: a process saved at order zero restarts at the order of the diagram it left behind. -/
theorem C59_refuted_order_zero : ∃ (p p' : Job ℚ ℚ ℤ) (f : ParaFile ℚ ℤ) (s : Statis ℚ ℚ),
    Alive demoMachine nearQ demoP0 p ∧ p.save = .ok (some (f, s)) ∧
    Job.load demoMachine demoMemory (savedDisk 1 (f, s)) = .ok p' ∧ p.env.chain.d.order = 0 ∧ p'.env.chain.d.order = 1 := by
  have t : (demoProc [goZero] >>= fun p => p.save >>= fun y => need y >>= fun y =>
      Job.load demoMachine demoMemory (savedDisk 1 y) >>= fun p' => .ok (p, p')).test (fun x =>
      decide (x.1.env.chain.d.order = 0 ∧ x.2.env.chain.d.order = 1)) = true := by decide +kernel
  obtain ⟨x, h, t⟩ := Res.test_ok t
  obtain ⟨p, h1, h⟩ := bind_eq_ok h
  obtain ⟨y, h2, h⟩ := bind_eq_ok h
  obtain ⟨z, h3, h⟩ := bind_eq_ok h
  obtain ⟨p', h4, h⟩ := bind_eq_ok h
  cases h
  cases y with
  | none => cases h3
  | some y =>
    cases h3
    have t := of_decide_eq_true t
    exact ⟨p, p', z.1, z.2, demoProc_alive h1, h2, h4, t.1, t.2⟩

end Feyn
