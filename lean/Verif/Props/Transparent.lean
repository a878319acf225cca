import Mathlib.Data.Rat.Floor
import Verif.Proof.SimMain
import Verif.Props.IO
import Verif.Props.Monitor

/-!
# Restarting, unused memory and unused table entries do not influence a run (C53-C55)
-/

namespace Feyn

section
variable {Q F : Type} [Field Q] [LinearOrder Q] [IsStrictOrderedRing Q] [Field F]

omit [IsStrictOrderedRing Q] in
theorem Started.dict {P : Params Q F} {d : Diag Q F} (h : Started P d) : dictOf d = newDict := by
  have s0 : (Bundle.ofSize 2).slot 0 = 0 := rfl
  have s1 : (Bundle.ofSize 2).slot 1 = 1 := rfl
  have s2 : (Bundle.ofSize 1).slot 0 = 0 := rfl
  have n0 : (Bundle.ofSize 2).name 0 = 0 := rfl
  have n1 : (Bundle.ofSize 2).name 1 = 1 := rfl
  have a2 : (Bundle.ofSize 2).avail = 2 := rfl
  have a1 : (Bundle.ofSize 1).avail = 1 := rfl
  simp [dictOf, newDict, verRec, gRec, wRec, h.ver, h.g, h.w, s0, s1, s2, a1, a2, List.range_succ, h.r 0 (by norm_num), h.r 1 (by norm_num),
    h.tau 0 (by norm_num), h.tau 1 (by norm_num), h.spin 0 (by norm_num), h.spin 1 (by norm_num), spinUpUp, h.gV 0 (by norm_num),
    h.gV 1 (by norm_num), h.wV, n0, n1, h.gK0, h.gK1, h.wK, h.gMeas0, h.gMeas1, h.wMeas, h.gGam 0 (by norm_num), h.gGam 1 (by norm_num), h.wDelta,
    h.wGam, h.worm, h.sfl, startSite]

/-- Chains that are related stay so under hops, and look the same. -/
theorem ChainSim.hops {ρ : Ren} {a b c c' : Chain Q F} (hP : c.P.Wf) (hi : Inv c.P c.d) (S : ChainSim ρ a b c c') (os : List Words) :
    ∃ e e', hop c os = .ok e ∧ hop c' os = .ok e' ∧ SameDiagram e.d e'.d ∧ toDict e'.d = toDict e.d ∧ SameCounts a e b e' := by
  obtain ⟨e, e', h1, h2, T, -, hi'⟩ := hop_sim os c c' hP hi S
  exact ⟨e, e', h1, h2, T.diag.same hi', T.diag.toDict hi', ⟨T.counter, T.proposed, T.accepted⟩⟩

theorem ChainSim.sweeps [FloorRing Q] [Algebra Q F] [StarRing F] {ρ : Ren} {a b : Chain Q F} : ∀ (oss : List (List Words)) (c c' : Chain Q F)
    (m : Monitor Q F), c.P.Wf → Inv c.P c.d → ChainSim ρ a b c c' →
    (Feyn.sweeps c' m oss).image results = (Feyn.sweeps c m oss).image results := by
  intro oss
  induction oss with
  | nil =>
    intro c c' m hP hi S
    simp only [Feyn.sweeps, Res.image, results, S.diag.toDict hi, S.diag.order, S.diag.weight, S.diag.phase, S.diag.hasGamma]
  | cons os rest ih =>
    intro c c' m hP hi S
    obtain ⟨e, e', h1, h2, T, hP', hi'⟩ := hop_sim os c c' hP hi S
    unfold Feyn.sweeps
    rw [h1, h2]
    simp only [Res.ok_bind, T.diag.measure T.tab hi' m]
    cases m.measure e.P e.d with
    | ok m' => exact ih e e' m' hP' hi' T
    | abort => rfl
    | ub => rfl

omit [IsStrictOrderedRing Q] in
theorem ChainSim.of_alike {ρ : Ren} {a b : Chain Q F} (T : TabEq a.P b.P) (S : Alike BSim ρ a.d b.d) : ChainSim ρ a b a b :=
  ⟨T, S, Nat.add_comm _ _, fun _ _ => Nat.add_comm _ _, fun _ _ => Nat.add_comm _ _⟩

/-- **C53.** Stopping and restarting does not change a run. Save a reachable state of order at least one without composite line and
load the file in a new process with the same parameters, whatever its memory contains. With the same random words
the continued run and the uninterrupted run give the same diagrams, the same files and the same
statistics of proposals and acceptances. -/
theorem C53_restart_same_run {P₀ : Params Q F} {c : Chain Q F} (hP : P₀.Wf) (hS : StartOk P₀) (h : Reach P₀ c)
    (hγ : c.d.hasGamma = 0) (ho : c.d.order ≠ 0) {d₀ : Diag Q F} (h0 : d₀.Fresh) :
    ∃ dict d', toDict c.d = .ok dict ∧ loadDiagram c.P dict d₀ = .ok d' ∧
      ∀ b : Chain Q F, b.P = c.P → b.d = d' → ∀ os : List Words, ∃ e e', hop c os = .ok e ∧ hop b os = .ok e' ∧
        SameDiagram e.d e'.d ∧ toDict e'.d = toDict e.d ∧ SameCounts c e b e' := by
  obtain ⟨hw, hi⟩ := h.inv hP hS
  obtain ⟨d', e, hR⟩ := load_relabeled c.P hi hγ h0
  have hR' := hR.of_fixed hi hγ ho
  refine ⟨_, d', toDict_eq hi, e, fun b h1 h2 os => ?_⟩
  exact (ChainSim.of_alike (by rw [h1]; exact .refl _) (by rw [h2]; exact hR'.alike hi hγ)).hops hw hi os

/-- **C53, measurements.** Nor does it change any measurement: starting from the same estimators, all estimators and histograms are
the same after every number of sweeps. -/
theorem C53_restart_same_measurements [FloorRing Q] [Algebra Q F] [StarRing F] {P₀ : Params Q F} {c : Chain Q F} (hP : P₀.Wf)
    (hS : StartOk P₀) (h : Reach P₀ c) (hγ : c.d.hasGamma = 0) (ho : c.d.order ≠ 0) {d₀ : Diag Q F} (h0 : d₀.Fresh) :
    ∃ dict d', toDict c.d = .ok dict ∧ loadDiagram c.P dict d₀ = .ok d' ∧
      ∀ b : Chain Q F, b.P = c.P → b.d = d' → ∀ (m : Monitor Q F) (oss : List (List Words)),
        (sweeps b m oss).image results = (sweeps c m oss).image results := by
  obtain ⟨hw, hi⟩ := h.inv hP hS
  obtain ⟨d', e, hR⟩ := load_relabeled c.P hi hγ h0
  have hR' := hR.of_fixed hi hγ ho
  refine ⟨_, d', toDict_eq hi, e, fun b h1 h2 m oss => ?_⟩
  exact (ChainSim.of_alike (by rw [h1]; exact .refl _) (by rw [h2]; exact hR'.alike hi hγ)).sweeps oss c b m hw hi

/-- **C54.** A new simulation does not depend on what its memory contained before: two objects that agree only in what
their constructors set give the same run, the same files and the same statistics for the same random words. -/
theorem C54_memory_start {P : Params Q F} (hP : P.Wf) (hS : StartOk P) {d₁ d₂ : Diag Q F} (h1 : d₁.Fresh) (h2 : d₂.Fresh) :
    ∃ x y, buildNew P d₁ = .ok x ∧ buildNew P d₂ = .ok y ∧
      ∀ a b : Chain Q F, a.P = P → b.P = P → a.d = x → b.d = y → ∀ os : List Words, ∃ e e', hop a os = .ok e ∧ hop b os = .ok e' ∧
        SameDiagram e.d e'.d ∧ toDict e'.d = toDict e.d ∧ SameCounts a e b e' := by
  obtain ⟨x, e1, s1⟩ := buildNew_started (P := P) h1
  have hi : Inv P x := s1.inv hP hS
  obtain ⟨y, e2, hR⟩ := load_relabeled P hi s1.hasGamma h2
  rw [s1.dict] at e2
  have hR' := hR.of_fixed hi s1.hasGamma (by rw [s1.order]; decide)
  refine ⟨x, y, e1, e2, fun a b ha hb ha' hb' os => ?_⟩
  subst ha
  subst ha'
  exact (ChainSim.of_alike (by rw [hb]; exact .refl _) (by rw [hb']; exact hR'.alike hi s1.hasGamma)).hops hP hi os

/-- **C54, measurements.** -/
theorem C54_memory_start_measurements [FloorRing Q] [Algebra Q F] [StarRing F] {P : Params Q F} (hP : P.Wf) (hS : StartOk P)
    {d₁ d₂ : Diag Q F} (h1 : d₁.Fresh) (h2 : d₂.Fresh) :
    ∃ x y, buildNew P d₁ = .ok x ∧ buildNew P d₂ = .ok y ∧
      ∀ a b : Chain Q F, a.P = P → b.P = P → a.d = x → b.d = y → ∀ (m : Monitor Q F) (oss : List (List Words)),
        (sweeps b m oss).image results = (sweeps a m oss).image results := by
  obtain ⟨x, e1, s1⟩ := buildNew_started (P := P) h1
  have hi : Inv P x := s1.inv hP hS
  obtain ⟨y, e2, hR⟩ := load_relabeled P hi s1.hasGamma h2
  rw [s1.dict] at e2
  have hR' := hR.of_fixed hi s1.hasGamma (by rw [s1.order]; decide)
  refine ⟨x, y, e1, e2, fun a b ha hb ha' hb' m oss => ?_⟩
  subst ha
  subst ha'
  exact (ChainSim.of_alike (by rw [hb]; exact .refl _) (by rw [hb']; exact hR'.alike hi s1.hasGamma)).sweeps oss a b m hP hi

/-- **C55.** The updates look into the weight tables only at sites of the lattice and times in `[0, beta)`, and never into the table of
instantaneous measuring lines: changing all other entries changes no proposal, no acceptance ratio and no new state. -/
theorem C55_tables_update {P₀ : Params Q F} {c : Chain Q F} (hP : P₀.Wf) (hS : StartOk P₀) (h : Reach P₀ c) {P' : Params Q F}
    (hT : TabEq c.P P') (op : Op) (o : Words) :
    ∃ out out', runOp c.P op o c.d = .ok out ∧ runOp P' op o c.d = .ok out' ∧ out'.tag = out.tag ∧ out'.prob = out.prob ∧
      SameDiagram out.d out'.d := by
  obtain ⟨hw, hi⟩ := h.inv hP hS
  obtain ⟨out, e, hi', -⟩ := runOp_good hw hi op o
  have := runOp_sim hw hT hi (Alike.refl c.d) op o
  rw [e] at this
  obtain ⟨out', e', h1, h2, h3⟩ := this.of_ok
  exact ⟨out, out', e, e', h1, h2, h3.same hi'⟩

/-- **C55, runs.** -/
theorem C55_tables_run {P₀ : Params Q F} {c : Chain Q F} (hP : P₀.Wf) (hS : StartOk P₀) (h : Reach P₀ c) {P' : Params Q F}
    (hT : TabEq c.P P') (os : List Words) :
    ∃ e e', hop c os = .ok e ∧ hop { c with P := P' } os = .ok e' ∧ SameDiagram e.d e'.d ∧ toDict e'.d = toDict e.d ∧
      e'.counter = e.counter ∧ e'.proposed = e.proposed ∧ e'.accepted = e.accepted := by
  obtain ⟨hw, hi⟩ := h.inv hP hS
  obtain ⟨e, e', h1, h2, h3, h4, h5⟩ := (ChainSim.of_alike (a := c) (b := { c with P := P' }) hT (Alike.refl c.d)).hops hw hi os
  refine ⟨e, e', h1, h2, h3, h4, ?_, ?_, ?_⟩
  · have := h5.counter
    dsimp only at this
    omega
  · funext op n
    have := h5.proposed op n
    dsimp only at this
    omega
  · funext op n
    have := h5.accepted op n
    dsimp only at this
    omega

end

/-! ### Examples -/

local instance transparentStar : StarRing ℚ := starRingOfComm

/-- A run at order 2 with a worm from which an interaction has been deleted, so that cells and names differ. -/
def demoPermuted : List Words := [mkWorm 0 5, addInt 20 1, addInt 21 0, delInt 1]

/-- The hypotheses of C53 hold for it, and the cells are permuted. -/
example : ∃ c, Reach demoP c ∧ (c.d.order == 2 && c.d.hasGamma == 0 && c.d.worm.exist && c.d.Ver.slot 2 == 5) = true :=
  demo_reach demoPermuted _ (by decide +kernel)

/-- Other rubbish in memory. -/
def demoRaw2 : Diag ℚ ℚ :=
  { demoRaw with
    phase := 17
    weight := -3
    sfl := 5
    sh := ⟨fun _ _ => 19, fun _ => 3, fun _ => true, fun _ _ => 11, fun _ _ => 7⟩
    co := ⟨fun _ => ⟨5, 6, 7⟩, fun _ => 99, fun _ _ => true⟩
    fl := ⟨fun _ => true, fun _ => true, fun _ => true, fun _ => true, fun _ => true, fun _ => true⟩
    measG := true
    gMeasure := 13
    wMeasure := 14
    vin := .g 4 true }

theorem demoRaw2_fresh : demoRaw2.Fresh := ⟨rfl, rfl, rfl, rfl, rfl, rfl, rfl, rfl⟩

/-- C54 applied to two memories with different content. -/
example : ∃ x y, buildNew demoP demoRaw = .ok x ∧ buildNew demoP demoRaw2 = .ok y ∧
    ∀ a b : Chain ℚ ℚ, a.P = demoP → b.P = demoP → a.d = x → b.d = y → ∀ os : List Words, ∃ e e', hop a os = .ok e ∧ hop b os = .ok e' ∧
      SameDiagram e.d e'.d ∧ toDict e'.d = toDict e.d ∧ SameCounts a e b e' :=
  C54_memory_start demoP_wf demoP_start demoRaw_fresh demoRaw2_fresh

/-- Tables with different entries outside the lattice and the time interval. -/
def demoTab : Params ℚ ℚ :=
  { demoP with
    gSmoothT := fun _ _ r _ t _ => if r.x < 2 ∧ 0 ≤ t then 1 else 1000
    wSmoothT := fun _ _ _ _ t t' => if t < 1 ∧ t' < 1 then 1 else 0
    wMeasDeltaT := fun _ _ _ _ => 123 }

theorem demoTab_eq : TabEq demoP demoTab where
  beta := rfl
  maxOrd := rfl
  runGamma3 := rfl
  lx := rfl
  ly := rfl
  nsub := rfl
  rw := rfl
  wormRW := rfl
  polarRW := rfl
  gammaGRW := rfl
  gammaWRW := rfl
  mod := rfl
  ph := rfl
  gMeasT := by intros; rfl
  gSmoothT := fun _ _ _ _ _ _ h1 _ h3 _ => if_pos ⟨h1.2.1, h3.1⟩
  gGamT := by intros; rfl
  wMeasT := by intros; rfl
  wDeltaT := by intros; rfl
  wSmoothT := fun _ _ _ _ _ _ _ _ h3 h4 => if_pos ⟨h3.2, h4.2⟩
  wGamT := by intros; rfl

/-- C55 applies to the start configuration with these tables, which differ from the others outside the domain. -/
example (c : Chain ℚ ℚ) (h : Reach demoP c) (e : c.P = demoP) (os : List Words) :
    ∃ e e', hop c os = .ok e ∧ hop { c with P := demoTab } os = .ok e' ∧ SameDiagram e.d e'.d ∧ toDict e'.d = toDict e.d ∧
      e'.counter = e.counter ∧ e'.proposed = e.proposed ∧ e'.accepted = e.accepted :=
  C55_tables_run demoP_wf demoP_start h (by rw [e]; exact demoTab_eq) os

end Feyn
