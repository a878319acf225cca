import Verif.Proof.Effect
import Verif.Props.Demo

/-!
# Properties of every diagram the simulation produces (C01-C05, C07, C08, C10-C15, C18)

`Reach P₀ c` (in `Spec/Run.lean`) says that the simulation with input parameters `P₀` can be in state `c`:
a new diagram, then hops with arbitrary random words, changes of the reweighting factors and annealing.
Beside each theorem the hypotheses are instantiated with a run that executes worm and order changes.
-/

namespace Feyn

section
variable {Q F : Type} [Field Q] [LinearOrder Q] [IsStrictOrderedRing Q] [Field F]
variable {P₀ : Params Q F} {c : Chain Q F}

/-- **C01.** With `N` interaction lines there are `2 N` propagators and `2 N` vertices; ends and back
pointers agree. -/
theorem C01_topology (hP : P₀.Wf) (hS : StartOk P₀) (h : Reach P₀ c) :
    1 ≤ c.d.W.live.card ∧
    c.d.G.live.card = 2 * c.d.W.live.card ∧
    c.d.Ver.live.card = 2 * c.d.W.live.card ∧
    (∀ g ∈ c.d.G.live, ∀ e : Dir, c.d.sh.gV g e ∈ c.d.Ver.live ∧ c.d.sh.vG (c.d.sh.gV g e) (!e) = g) ∧
    (∀ v ∈ c.d.Ver.live, ∀ e : Dir, c.d.sh.vG v e ∈ c.d.G.live ∧ c.d.sh.gV (c.d.sh.vG v e) (!e) = v) ∧
    (∀ w ∈ c.d.W.live, ∀ e : Dir, c.d.sh.wV w e ∈ c.d.Ver.live ∧ c.d.sh.vW (c.d.sh.wV w e) = w ∧
      c.d.sh.vDir (c.d.sh.wV w e) = e) ∧
    (∀ v ∈ c.d.Ver.live, c.d.sh.vW v ∈ c.d.W.live ∧ c.d.sh.wV (c.d.sh.vW v) (c.d.sh.vDir v) = v) := by
  have hi := (h.inv hP hS).2
  have hc := hi.count
  rw [Bundle.card_live hc.wWf, Bundle.card_live hc.gWf, Bundle.card_live hc.verWf]
  have t := hi.topo
  exact ⟨hc.n_pos, hc.g, hc.ver, fun g hg e => ⟨t.gV_mem g hg e, t.vG_gV g hg e⟩,
    fun v hv e => ⟨t.vG_mem v hv e, t.gV_vG v hv e⟩,
    fun w hw e => ⟨t.wV_mem w hw e, t.vW_wV w hw e, t.vDir_wV w hw e⟩,
    fun v hv => ⟨t.vW_mem v hv, t.wV_vW v hv⟩⟩

example : ∃ c, Reach demoP c ∧ c.d.W.live.card = 3 ∧ c.d.Ver.live.card = 6 := by
  obtain ⟨c, h, hf⟩ := demo_worm
  have hc := (h.inv demoP_wf demoP_start).2.count
  have := C01_topology demoP_wf demoP_start h
  have ho := hc.order
  simp at hf
  have h3 : c.d.W.live.card = 3 := by rw [Bundle.card_live hc.wWf]; omega
  exact ⟨c, h, h3, by omega⟩

/-- **C02.** Momentum conservation at each vertex, modulo the number of momenta. The worm carries its momentum
from `ira` to `masha`. -/
theorem C02_momentum_conserved (hP : P₀.Wf) (hS : StartOk P₀) (h : Reach P₀ c) (v : ℕ) (hv : v ∈ c.d.Ver.live) :
    (20001 : ℤ) ∣
      c.d.mo.gK (c.d.sh.vG v IN) - c.d.mo.gK (c.d.sh.vG v OUT)
        - (if c.d.sh.vDir v = IN then c.d.mo.wK (c.d.sh.vW v) else -c.d.mo.wK (c.d.sh.vW v))
        - (if c.d.worm.exist ∧ v = c.d.worm.ira then c.d.worm.k else 0)
        + (if c.d.worm.exist ∧ v = c.d.worm.masha then c.d.worm.k else 0) := by
  have hk := (h.inv hP hS).2.kcons v hv
  unfold KConserved at hk
  cases hd : c.d.sh.vDir v <;> simp [hd] at hk ⊢ <;> exact hk

example : ∃ c, Reach demoP c ∧ c.d.worm.exist = true ∧ c.d.worm.ira ∈ c.d.Ver.live ∧ c.d.worm.k ≠ 0 := by
  obtain ⟨c, h, hf⟩ := demo_reach (P := demoP) demoOps (fun c => c.d.worm.exist && c.d.worm.k != 0)
    (by decide +kernel)
  simp at hf
  exact ⟨c, h, hf.1, (h.inv demoP_wf demoP_start).2.worm.ira_mem hf.1, hf.2⟩

/-- **C03.** Both ends of each propagator carry the same spin. -/
theorem C03_spin_conserved (hP : P₀.Wf) (hS : StartOk P₀) (h : Reach P₀ c) (g : ℕ) (hg : g ∈ c.d.G.live) :
    c.d.co.spin (c.d.sh.gV g IN) OUT = c.d.co.spin (c.d.sh.gV g OUT) IN :=
  (h.inv hP hS).2.spin g hg

/-- Spins do change in the demonstration: after a worm move some propagator carries spin down. -/
example : ∃ c, Reach demoP c ∧ ∃ g ∈ c.d.G.live, c.d.co.spin (c.d.sh.gV g IN) OUT = DOWN := by
  obtain ⟨c, h, hf⟩ := demo_reach (P := demoP) [mkWorm 0 5, addInt 20 1, hopWords 19 2 [0, zeroWord]]
    (fun c => (List.range 20).any fun g => decide (c.d.G.name g < c.d.G.avail) &&
      (c.d.co.spin (c.d.sh.gV g IN) OUT == DOWN)) (by decide +kernel)
  simp at hf
  obtain ⟨g, h1, h2, h3⟩ := hf
  exact ⟨c, h, g, Bundle.mem_live.2 ⟨h1, h2⟩, h3⟩

/-- **C04.** Propagator momenta are pairwise different, interaction momenta are non-zero with pairwise different
absolute values, and the tables contain exactly the momenta in use. -/
theorem C04_momenta_unique_and_registered (hP : P₀.Wf) (hS : StartOk P₀) (h : Reach P₀ c) :
    (∀ g ∈ c.d.G.live, ∀ g' ∈ c.d.G.live, c.d.mo.gK g = c.d.mo.gK g' → g = g') ∧
    (∀ w ∈ c.d.W.live, ∀ w' ∈ c.d.W.live, |c.d.mo.wK w| = |c.d.mo.wK w'| → w = w') ∧
    (∀ w ∈ c.d.W.live, c.d.mo.wK w ≠ 0) ∧
    (∀ k, c.d.mo.gHash k = true ↔ ∃ g ∈ c.d.G.live, c.d.mo.gK g = k) ∧
    (∀ k, c.d.mo.wHash k = true ↔ ∃ w ∈ c.d.W.live, |c.d.mo.wK w| = k) := by
  have hi := (h.inv hP hS).2
  exact ⟨hi.ghash.inj, hi.whash.inj, hi.whash.ne, hi.ghash.hash, hi.whash.hash⟩

example : ∃ c, Reach demoP c ∧ c.d.mo.wHash 20 = true ∧ c.d.mo.wHash 21 = false := by
  obtain ⟨c, h, hf⟩ := demo_reach (P := demoP) demoOps (fun c => c.d.mo.wHash 20 && !c.d.mo.wHash 21)
    (by decide +kernel)
  simp at hf
  exact ⟨c, h, hf⟩

/-- **C05.** Weights and phase. -/
theorem C05_weight (hP : P₀.Wf) (hS : StartOk P₀) (h : Reach P₀ c) :
    (∀ g ∈ c.d.G.live, c.d.wt.gWt g =
      gW0 c.P c.d.ext (c.d.co.r (c.d.sh.gV g IN)) (c.d.co.r (c.d.sh.gV g OUT))
        (c.d.co.tau (c.d.sh.gV g IN)) (c.d.co.tau (c.d.sh.gV g OUT))
        (c.d.co.spin (c.d.sh.gV g IN) OUT) (c.d.co.spin (c.d.sh.gV g OUT) IN) (c.d.fl.gMeas g) (c.d.fl.gGam g)) ∧
    (∀ w ∈ c.d.W.live, c.d.wt.wWt w =
      wW0 c.P c.d.ext (c.d.co.r (c.d.sh.wV w IN)) (c.d.co.r (c.d.sh.wV w OUT))
        (c.d.co.tau (c.d.sh.wV w IN)) (c.d.co.tau (c.d.sh.wV w OUT))
        (c.d.co.spin (c.d.sh.wV w IN)) (c.d.co.spin (c.d.sh.wV w OUT))
        (c.d.fl.wWorm w) (c.d.fl.wMeas w) (c.d.fl.wDelta w) (c.d.fl.wGam w)) ∧
    (c.d.order ≠ 0 → c.d.weight =
      (∏ g ∈ c.d.G.live, c.d.wt.gWt g) * (∏ w ∈ c.d.W.live, c.d.wt.wWt w) * ((c.d.sfl : F) * (-1) ^ c.d.order)) ∧
    (c.d.order = 0 → c.d.weight = ((c.P.lx * c.P.ly * c.P.nsub : ℕ) : F)) ∧
    c.d.phase = c.P.ph c.d.weight := by
  have hi := (h.inv hP hS).2
  refine ⟨hi.line.g_eq, hi.line.w_eq, fun ho => ?_, fun ho => ?_, hi.phase⟩
  · have hw := hi.weight
    rw [if_neg ho] at hw
    have hn : c.d.order = c.d.W.avail := by have := hi.count.order; omega
    rw [hw, totalWeight, hn]
  · have hw := hi.weight
    rwa [if_pos ho] at hw

example : ∃ c, Reach demoP c ∧ c.d.order = 3 ∧ c.d.weight = -(c.d.sfl : ℚ) := by
  obtain ⟨c, h, hf⟩ := demo_reach (P := demoP) demoOps
    (fun c => c.d.order == 3 && decide (c.d.weight = -(c.d.sfl : ℚ))) (by decide +kernel)
  simp at hf
  exact ⟨c, h, hf⟩

/-- **C07.** Every hop returns normally, whatever random words it is given, and the simulation can go on from the
state it returns. Missing: the loader also accepts a maximal order of 0 (see `C07_refuted_for_order_zero`),
and it does not test that `beta` and the lattice are positive. -/
theorem C07_no_crash_partial (hP : P₀.Wf) (hS : StartOk P₀) (h : Reach P₀ c) (os : List Words) :
    ∃ c', hop c os = .ok c' ∧ Reach P₀ c' := by
  induction os generalizing c with
  | nil => exact ⟨c, rfl, h⟩
  | cons o os ih =>
    obtain ⟨c1, e1, -, -⟩ := hopOne_ok (h.inv hP hS).1 (h.inv hP hS).2 o
    obtain ⟨c2, e2, h2⟩ := ih (Reach.hop c c1 o h e1)
    exact ⟨c2, by simp only [hop, e1, Res.ok_bind, e2], h2⟩

/-- The start itself returns normally. -/
theorem C07_start (hP : P₀.Wf) (hS : StartOk P₀) (d : Diag Q F) (hd : d.Fresh) :
    ∃ d', buildNew P₀ d = .ok d' ∧ d'.order = 1 := by
  obtain ⟨d', e, -, h⟩ := buildNew_inv hP hS hd
  exact ⟨d', e, h⟩

example (os : List Words) : ∃ c c', Reach demoP c ∧ c.d.order = 3 ∧ hop c os = .ok c' := by
  obtain ⟨c, h, hf⟩ := demo_worm
  simp at hf
  obtain ⟨c', e, -⟩ := C07_no_crash_partial demoP_wf demoP_start h os
  exact ⟨c, c', h, hf.1.1, e⟩

example (d : Diag ℝ ℂ) (hd : d.Fresh) : ∃ d', buildNew complexDemo d = .ok d' ∧ d'.order = 1 :=
  C07_start complexDemo_wf complexDemo_start d hd

/-- The loader requires `Order < MAX_ORDER` and `OrderReWeight.size() >= Order + 1`
(`module/parameter/parameter.cpp` 90-91); a maximal order of 0 with one factor passes. The very first call of
`JumpToOrder0` then reads behind the end of the vector. -/
def orderZeroP : Params ℚ ℚ := { demoP with maxOrd := 0, orderRW := [1] }

theorem C07_refuted_for_order_zero :
    orderZeroP.maxOrd < 10 ∧ orderZeroP.maxOrd + 1 ≤ orderZeroP.orderRW.length ∧
    ∃ c, Reach orderZeroP c ∧ ∃ os, hop c os = .ub := by
  refine ⟨by decide, by decide, ?_⟩
  obtain ⟨c, e, -⟩ := Res.test_ok (r := startChain orderZeroP) (f := fun _ => true) (by decide +kernel)
  refine ⟨c, demoRun_reach (os := []) (by unfold demoRun; rw [e]; rfl), [goZero], ?_⟩
  have : (startChain orderZeroP >>= fun c => hop c [goZero]) matches .ub := by decide +kernel
  rw [e] at this
  simp only [Res.ok_bind] at this
  cases hh : hop c [goZero] <;> simp_all

/-- **C08.** Exactly one line is marked as measuring line; the stored pointer and kind designate it. -/
theorem C08_one_measuring_line (hP : P₀.Wf) (hS : StartOk P₀) (h : Reach P₀ c) :
    (c.d.measG = true → c.d.gMeasure ∈ c.d.G.live ∧
      (∀ g ∈ c.d.G.live, c.d.fl.gMeas g = true ↔ g = c.d.gMeasure) ∧ (∀ w ∈ c.d.W.live, c.d.fl.wMeas w = false)) ∧
    (c.d.measG = false → c.d.wMeasure ∈ c.d.W.live ∧
      (∀ w ∈ c.d.W.live, c.d.fl.wMeas w = true ↔ w = c.d.wMeasure) ∧ (∀ g ∈ c.d.G.live, c.d.fl.gMeas g = false)) := by
  have m := (h.inv hP hS).2.meas
  refine ⟨fun hm => ⟨m.g_mem hm, fun g hg => by rw [m.g_flag g hg]; simp [hm], fun w hw => ?_⟩,
    fun hm => ⟨m.w_mem hm, fun w hw => by rw [m.w_flag w hw]; simp [hm], fun g hg => ?_⟩⟩
  · have := m.w_flag w hw
    simp [hm] at this; exact this
  · have := m.g_flag g hg
    simp [hm] at this; exact this

example : (∃ c, Reach demoP c ∧ c.d.measG = true) ∧ ∃ c, Reach demoP c ∧ c.d.measG = false := by
  constructor
  · exact demo_reach (P := demoP) demoOps (fun c => c.d.measG) (by decide +kernel)
  · obtain ⟨c, h, hf⟩ := demo_reach (P := demoP) [hopWords 19 12 [0, zeroWord]] (fun c => !c.d.measG) (by decide +kernel)
    exact ⟨c, h, by simpa using hf⟩

/-- **C10.** Order bounds, and order versus number of interaction lines. -/
theorem C10_order_bounds (hP : P₀.Wf) (hS : StartOk P₀) (h : Reach P₀ c) :
    c.d.order ≤ c.P.maxOrd ∧ c.d.W.live.card = max c.d.order 1 := by
  have hi := (h.inv hP hS).2.count
  rw [Bundle.card_live hi.wWf]
  have h1 := hi.order
  have h2 := hi.n_le
  have h3 := hi.n_pos
  omega

omit [IsStrictOrderedRing Q] in
/-- **C10.** One hop changes the order by at most one. -/
theorem C10_order_step {c c' : Chain Q F} {o : Words} (e : hopOne c o = .ok c') :
    c'.d.order ≤ c.d.order + 1 ∧ c.d.order ≤ c'.d.order + 1 := by
  unfold hopOne at e
  cases hs : selectOp c.P (urn Q (o 0)) with
  | none => rw [hs] at e; cases e; simp
  | some op =>
    rw [hs] at e
    dsimp only at e
    cases hr : runOp c.P op (fun i => o (i + 1)) c.d with
    | abort => rw [hr] at e; cases e
    | ub => rw [hr] at e; cases e
    | ok out =>
      rw [hr] at e; cases e
      obtain ⟨h1, h2, h3⟩ := runOp_effect c.P op (fun i => o (i + 1)) c.d out hr
      show out.d.order ≤ _ ∧ _ ≤ out.d.order + 1
      by_cases ht : out.tag = .accept
      · have h2 := (h2 (by rw [ht]; decide)).1
        rw [(h3 ht).1]
        cases op <;> simp [Op.newOrder, Op.fromOrder] at h2 ⊢ <;> omega
      · rcases h1 ht with q | ⟨-, e, q⟩ <;> rw [q] <;> simp

/-- The maximal order is reached and order 0 is reached. -/
example : (∃ c, Reach demoP c ∧ c.d.order = c.P.maxOrd) ∧ ∃ c, Reach demoP c ∧ c.d.order = 0 := by
  constructor
  · obtain ⟨c, h, hf⟩ := demo_reach (P := demoP) demoOps (fun c => c.d.order == c.P.maxOrd) (by decide +kernel)
    exact ⟨c, h, by simpa using hf⟩
  · obtain ⟨c, h, hf⟩ := demo_zero
    exact ⟨c, h, by simpa using hf⟩

omit [IsStrictOrderedRing Q] in
/-- **C11.** A hop that does not count an acceptance leaves the diagram as it was. Only the external point may be
overwritten, and only if there is no composite line. This holds for every state, consistent or not. -/
theorem C11_rejected_changes_nothing {c c' : Chain Q F} {o : Words} (e : hopOne c o = .ok c')
    (hr : c'.accepted = c.accepted) :
    c'.d = c.d ∨ (c.d.hasGamma = 0 ∧ ∃ x, c'.d = { c.d with ext := x }) := by
  unfold hopOne at e
  cases hs : selectOp c.P (urn Q (o 0)) with
  | none => rw [hs] at e; cases e; exact .inl rfl
  | some op =>
    rw [hs] at e
    dsimp only at e
    cases hr' : runOp c.P op (fun i => o (i + 1)) c.d with
    | abort => rw [hr'] at e; cases e
    | ub => rw [hr'] at e; cases e
    | ok out =>
      rw [hr'] at e; cases e
      refine (runOp_effect c.P op (fun i => o (i + 1)) c.d out hr').1 fun ht => ?_
      have := congrFun (congrFun hr op) c.d.order
      simp [Chain.book, ht, bump] at this

/-- A proposed but rejected hop: `CreateWorm` with `urn = 1/2` and weights that make the ratio small. -/
example : ∃ c c' : Chain ℚ ℚ, ∃ o, Reach { demoP with wormRW := 1 / 1000 } c ∧ hopOne c o = .ok c' ∧
    c'.accepted = c.accepted ∧ c'.proposed .createWorm 1 = 1 := by
  obtain ⟨c, e, -⟩ := Res.test_ok (r := startChain { demoP with wormRW := 1 / 1000 }) (f := fun _ => true)
    (by decide +kernel)
  have hc : Reach { demoP with wormRW := 1 / 1000 } c := demoRun_reach (os := []) (by unfold demoRun; rw [e]; rfl)
  have hh : ((startChain { demoP with wormRW := 1 / 1000 }) >>= fun c => hopOne c (hopWords 19 0 [0, kWord 5, 1, 0])).test
      (fun c' => (c'.proposed .createWorm 1 == 1) && decide (c'.counter = 1) && (c'.d.worm.exist == false) &&
        opList.all fun op => (List.range 10).all fun n => c'.accepted op n == 0) = true := by decide +kernel
  rw [e] at hh
  obtain ⟨c', e', hf⟩ := Res.test_ok hh
  refine ⟨c, c', _, hc, e', ?_, ?_⟩
  · simp only [Res.ok_bind] at e'
    unfold hopOne at e'
    cases hs : selectOp c.P (urn ℚ (hopWords 19 0 [0, kWord 5, 1, 0] 0)) with
    | none => rw [hs] at e'; cases e'; rfl
    | some op =>
      rw [hs] at e'
      dsimp only at e'
      cases hr' : runOp c.P op (fun i => hopWords 19 0 [0, kWord 5, 1, 0] (i + 1)) c.d with
      | abort => rw [hr'] at e'; cases e'
      | ub => rw [hr'] at e'; cases e'
      | ok out =>
        rw [hr'] at e'; cases e'
        show (if out.tag = .accept then _ else _) = _
        by_cases ht : out.tag = .accept
        · exfalso
          simp [Chain.book, ht, bump] at hf
          have hn := hf.2 op (by cases op <;> simp [opList]) c.d.order
          have hlt : c.d.order ≤ 3 := (C10_order_bounds (P₀ := { demoP with wormRW := 1 / 1000 })
            ⟨demoP_wf.beta_pos, demoP_wf.one_le, demoP_wf.lt_max, demoP_wf.rw_len, demoP_wf.lx_pos, demoP_wf.ly_pos,
              demoP_wf.nsub_pos, demoP_wf.norm_ne⟩ ⟨demoP_start.site, demoP_start.gMeas, demoP_start.gSmooth, demoP_start.wSmooth⟩ hc).1.trans
              (by
                have : c.P = { demoP with wormRW := 1 / 1000 } := by
                  have := e; unfold startChain at this
                  cases hb : buildNew { demoP with wormRW := 1 / 1000 } demoRaw <;> rw [hb] at this <;> cases this
                  rfl
                rw [this]; decide)
          have := hn (by omega)
          simp at this
        · rw [if_neg ht]
  · simp at hf; exact hf.1.1.1

/-- **C12.** No line weight and no total weight vanishes. -/
theorem C12_weights_nonzero (hP : P₀.Wf) (hS : StartOk P₀) (h : Reach P₀ c) :
    c.d.weight ≠ 0 ∧ (∀ g ∈ c.d.G.live, c.d.wt.gWt g ≠ 0) ∧ (∀ w ∈ c.d.W.live, c.d.wt.wWt w ≠ 0) := by
  have hi := (h.inv hP hS).2
  refine ⟨?_, hi.line.g_ne, hi.line.w_ne⟩
  obtain ⟨h1, h2, h3, h4, -⟩ := C05_weight hP hS h
  by_cases ho : c.d.order = 0
  · rw [h4 ho]; exact (h.inv hP hS).1.norm_ne
  · rw [h3 ho]
    obtain ⟨σ, -, hs⟩ := hi.sign
    have hz : (c.d.sfl : F) ≠ 0 := by
      rw [hs]
      rcases Int.units_eq_one_or (Equiv.Perm.sign σ) with q | q <;> rw [q] <;> simp
    exact mul_ne_zero (mul_ne_zero (Finset.prod_ne_zero_iff.2 hi.line.g_ne) (Finset.prod_ne_zero_iff.2 hi.line.w_ne))
      (mul_ne_zero hz (pow_ne_zero _ (neg_ne_zero.2 one_ne_zero)))

/-- A simulation whose instantaneous interaction vanishes. -/
def zeroDeltaP : Params ℚ ℚ := { demoP with wDeltaT := fun _ _ _ _ => 0 }

/-- The proposal with vanishing weight is made, but the move is refused even for `urn = 0`. -/
example : ∃ c, Reach zeroDeltaP c ∧ c.d.order = 1 ∧ c.proposed .addDelta 1 = 1 := by
  obtain ⟨c, h, hf⟩ := demo_reach (P := zeroDeltaP) [mkWorm 0 5, addDel 9 1]
    (fun c => c.d.order == 1 && c.proposed .addDelta 1 == 1) (by decide +kernel)
  simp at hf
  exact ⟨c, h, hf⟩

/-- **C13.** Worm ends and worm flags. -/
theorem C13_worm (hP : P₀.Wf) (hS : StartOk P₀) (h : Reach P₀ c) :
    (c.d.worm.exist = true → c.d.worm.ira ∈ c.d.Ver.live ∧ c.d.worm.masha ∈ c.d.Ver.live ∧
      c.d.worm.ira ≠ c.d.worm.masha) ∧
    (∀ w ∈ c.d.W.live, c.d.fl.wWorm w = true ↔ c.d.worm.exist = true ∧
      (w = c.d.sh.vW c.d.worm.ira ∨ w = c.d.sh.vW c.d.worm.masha)) := by
  have hi := (h.inv hP hS).2
  have w := hi.worm
  refine ⟨fun he => ⟨w.ira_mem he, w.masha_mem he, w.ne he⟩, fun x hx => ?_⟩
  rw [w.flag x hx]
  constructor
  · rintro ⟨he, e, q | q⟩
    · exact ⟨he, .inl (by rw [← q, hi.topo.vW_wV x hx])⟩
    · exact ⟨he, .inr (by rw [← q, hi.topo.vW_wV x hx])⟩
  · rintro ⟨he, q | q⟩
    · exact ⟨he, _, .inl (by rw [q]; exact hi.topo.wV_vW _ (w.ira_mem he))⟩
    · exact ⟨he, _, .inr (by rw [q]; exact hi.topo.wV_vW _ (w.masha_mem he))⟩

/-- A worm whose ends sit on two different interaction lines. -/
example : ∃ c, Reach demoP c ∧ c.d.worm.exist = true ∧ c.d.sh.vW c.d.worm.ira ≠ c.d.sh.vW c.d.worm.masha := by
  obtain ⟨c, h, hf⟩ := demo_reach (P := demoP) [mkWorm 0 5, addInt 20 1, hopWords 19 2 [0, zeroWord]]
    (fun c => c.d.worm.exist && c.d.sh.vW c.d.worm.ira != c.d.sh.vW c.d.worm.masha) (by decide +kernel)
  simp at hf
  exact ⟨c, h, hf⟩

/-- **C14.** Composite lines and the status word. -/
theorem C14_composite_line (hP : P₀.Wf) (hS : StartOk P₀) (h : Reach P₀ c) :
    (c.d.hasGamma = 0 ↔ (∀ g ∈ c.d.G.live, c.d.fl.gGam g = false) ∧ (∀ w ∈ c.d.W.live, c.d.fl.wGam w = false)) ∧
    (c.d.hasGamma = 1 ↔ (∃! g, g ∈ c.d.G.live ∧ c.d.fl.gGam g = true) ∧ (∀ w ∈ c.d.W.live, c.d.fl.wGam w = false)) ∧
    (c.d.hasGamma = 2 ↔ (∃! w, w ∈ c.d.W.live ∧ c.d.fl.wGam w = true) ∧ (∀ g ∈ c.d.G.live, c.d.fl.gGam g = false)) ∧
    c.d.hasGamma ≤ 2 ∧
    (∀ g ∈ c.d.G.live, c.d.fl.gGam g = true → c.d.fl.gMeas g = false ∧ c.d.vin = .g g IN ∧ c.d.vout = .g g OUT) ∧
    (∀ w ∈ c.d.W.live, c.d.fl.wGam w = true → c.d.fl.wMeas w = false ∧ c.d.vin = .w w IN ∧ c.d.vout = .w w OUT) := by
  have m := (h.inv hP hS).2.gamma
  have g0 : c.d.hasGamma ≠ 1 → ∀ g ∈ c.d.G.live, c.d.fl.gGam g = false := fun q g hg => by
    have := m.g_flag g hg
    by_contra hc
    exact q (this.1 (by simpa using hc)).1
  have w0 : c.d.hasGamma ≠ 2 → ∀ w ∈ c.d.W.live, c.d.fl.wGam w = false := fun q w hw => by
    have := m.w_flag w hw
    by_contra hc
    exact q (this.1 (by simpa using hc)).1
  have gu : c.d.hasGamma = 1 → ∃! g, g ∈ c.d.G.live ∧ c.d.fl.gGam g = true := fun q => by
    obtain ⟨g, hg, hf⟩ := m.g_ex q
    refine ⟨g, ⟨hg, hf⟩, fun g' hg' => ?_⟩
    have h1 := ((m.g_flag g hg).1 hf).2.1
    have h2 := ((m.g_flag g' hg'.1).1 hg'.2).2.1
    rw [h1] at h2
    exact (Handle.g.inj h2).1.symm
  have wu : c.d.hasGamma = 2 → ∃! w, w ∈ c.d.W.live ∧ c.d.fl.wGam w = true := fun q => by
    obtain ⟨g, hg, hf⟩ := m.w_ex q
    refine ⟨g, ⟨hg, hf⟩, fun g' hg' => ?_⟩
    have h1 := ((m.w_flag g hg).1 hf).2.1
    have h2 := ((m.w_flag g' hg'.1).1 hg'.2).2.1
    rw [h1] at h2
    exact (Handle.w.inj h2).1.symm
  refine ⟨⟨fun q => ⟨g0 (by omega), w0 (by omega)⟩, fun ⟨a, b⟩ => ?_⟩,
    ⟨fun q => ⟨gu q, w0 (by omega)⟩, fun ⟨⟨g, ⟨hg, hf⟩, _⟩, _⟩ => ((m.g_flag g hg).1 hf).1⟩,
    ⟨fun q => ⟨wu q, g0 (by omega)⟩, fun ⟨⟨g, ⟨hg, hf⟩, _⟩, _⟩ => ((m.w_flag g hg).1 hf).1⟩, m.le,
    fun g hg hf => ⟨m.g_meas g hg hf, ((m.g_flag g hg).1 hf).2⟩,
    fun w hw hf => ⟨m.w_meas w hw hf, ((m.w_flag w hw).1 hf).2⟩⟩
  have := m.le
  have h1 : c.d.hasGamma ≠ 1 := fun q => by obtain ⟨g, hg, hf⟩ := m.g_ex q; rw [a g hg] at hf; cases hf
  have h2 : c.d.hasGamma ≠ 2 := fun q => by obtain ⟨g, hg, hf⟩ := m.w_ex q; rw [b g hg] at hf; cases hf
  omega

example : (∃ c, Reach demoP3 c ∧ c.d.hasGamma = 1) ∧ ∃ c, Reach demoP3 c ∧ c.d.hasGamma = 2 := by
  constructor
  · obtain ⟨c, h, hf⟩ := demo_gamma
    simp at hf
    exact ⟨c, h, hf.2⟩
  · obtain ⟨c, h, hf⟩ := demo_reach (P := demoP3) [hopWords 23 21 [0, urnWord 1 3, 0, 0, 0, zeroWord]]
      (fun c => c.d.hasGamma == 2) (by decide +kernel)
    exact ⟨c, h, by simpa using hf⟩

/-- **C15.** Times, sites and momenta stay in their domains. -/
theorem C15_domains (hP : P₀.Wf) (hS : StartOk P₀) (h : Reach P₀ c) :
    (∀ v ∈ c.d.Ver.live, 0 ≤ c.d.co.tau v ∧ c.d.co.tau v < c.P.beta) ∧
    (∀ v ∈ c.d.Ver.live, 0 ≤ (c.d.co.r v).x ∧ (c.d.co.r v).x < c.P.lx ∧ 0 ≤ (c.d.co.r v).y ∧
      (c.d.co.r v).y < c.P.ly ∧ 0 ≤ (c.d.co.r v).sub ∧ (c.d.co.r v).sub < c.P.nsub) ∧
    (∀ g ∈ c.d.G.live, -10000 ≤ c.d.mo.gK g ∧ c.d.mo.gK g ≤ 10000) ∧
    (∀ w ∈ c.d.W.live, -10000 ≤ c.d.mo.wK w ∧ c.d.mo.wK w ≤ 10000) := by
  have hi := (h.inv hP hS).2
  exact ⟨fun v hv => (hi.dom v hv).2, fun v hv => (hi.dom v hv).1, hi.ghash.mem, hi.whash.mem⟩

example : ∃ c, Reach demoP c ∧ ∃ v ∈ c.d.Ver.live, c.d.co.tau v = 3 / 4 := by
  obtain ⟨c, h, hf⟩ := demo_reach (P := demoP) demoOps
    (fun c => (List.range 20).any fun v => decide (c.d.Ver.name v < c.d.Ver.avail) && decide (c.d.co.tau v = 3 / 4))
    (by decide +kernel)
  simp at hf
  obtain ⟨v, h1, h2, h3⟩ := hf
  exact ⟨c, h, v, Bundle.mem_live.2 ⟨h1, h2⟩, h3⟩

/-- **C18.** Without a worm no propagator starts and ends at the same vertex. -/
theorem C18_no_tadpole (hP : P₀.Wf) (hS : StartOk P₀) (h : Reach P₀ c) (hw : c.d.worm.exist = false)
    (g : ℕ) (hg : g ∈ c.d.G.live) : c.d.sh.gV g IN ≠ c.d.sh.gV g OUT := by
  have hi := (h.inv hP hS).2
  intro e
  refine hi.noTadpole hw (hi.topo.gV_mem g hg IN) ?_
  have h1 := hi.topo.vG_gV g hg IN
  have h2 := hi.topo.vG_gV g hg OUT
  simp only [Bool.not_false, Bool.not_true] at h1 h2
  rw [h1, e, h2]

/-- A worm-free state of order 3; and with a worm tadpoles do occur, so the hypothesis is needed. -/
example : (∃ c, Reach demoP c ∧ c.d.worm.exist = false ∧ c.d.order = 3) ∧
    ∃ c, Reach demoP c ∧ ∃ g ∈ c.d.G.live, c.d.sh.gV g IN = c.d.sh.gV g OUT := by
  constructor
  · obtain ⟨c, h, hf⟩ := demo_free
    simp at hf
    exact ⟨c, h, hf.1.2, hf.1.1⟩
  · obtain ⟨c, h, hf⟩ := demo_reach (P := demoP) [mkWorm 0 5, hopWords 19 4 [1, zeroWord]]
      (fun c => (List.range 20).any fun g => decide (c.d.G.name g < c.d.G.avail) &&
        (c.d.sh.gV g IN == c.d.sh.gV g OUT)) (by decide +kernel)
    simp at hf
    obtain ⟨g, h1, h2, h3⟩ := hf
    exact ⟨c, h, g, Bundle.mem_live.2 ⟨h1, h2⟩, h3⟩

end
end Feyn
