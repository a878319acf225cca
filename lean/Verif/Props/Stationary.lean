import Verif.Proof.StatMain
import Verif.Props.Return

/-! C86: one step of the Markov chain leaves the target distribution unchanged. -/

namespace Feyn

set_option linter.unusedSectionVars false

section
variable {Q F : Type} [Field Q] [LinearOrder Q] [IsStrictOrderedRing Q] [Field F]
variable {P P₀ : Params Q F} {d e y : Diag Q F} {X : Finset (Diag Q F)} {c : Chain Q F}

/-- **C86, the draws.** The probabilities with which the choices of one update are drawn add up to the probability with which the
update is called. (`ChangeR` of a vertex and `ChangeSpin` do nothing; they have no moves.) -/
theorem C86_draws (hP : P.Wf) (h : Inv P d) {op : Op} (h1 : op ≠ .changeRVertex) (h2 : op ≠ .changeSpin) :
    ∑ m ∈ movesOf P d op, m.chance P d = 1 / (numOps P : Q) := sum_movesOf hP h h1 h2

/-- **C86, the moves.** All choices that can be drawn are among the moves: called updates, existing lines and vertices, momenta and
sites in their ranges, times of the generator. -/
theorem C86_moves (hP : P.Wf) {m : Move Q} : m ∈ allMoves P d ↔ m.Valid P d ∧ m.Times (GridTime P) := mem_allMoves hP

/-- **C86, the acceptance.** `Move.accepted` is what the code does: with the number `u` from `[0, 1)` the move is accepted just if `u`
is below the acceptance probability, the diagram is then the given one; if there is no acceptance probability then the move is
never accepted. -/
theorem C86_acceptance (m : Move Q) :
    (∀ a d', m.accepted P d = some (a, d') → 0 < a ∧ a ≤ 1 ∧ ∀ u, 0 ≤ u → u < 1 →
      (u < a → ∃ out, m.run P d u = .ok out ∧ out.tag = .accept ∧ out.d = d') ∧
      (a ≤ u → ∃ out, m.run P d u = .ok out ∧ out.tag ≠ .accept)) ∧
    (m.accepted P d = none → ∀ u, 0 ≤ u → ∀ out, m.run P d u = .ok out → out.tag ≠ .accept) := by
  refine ⟨fun a d' h => ?_, fun h u hu out e => accepted_none h hu e⟩
  obtain ⟨p, hp, rfl, hu⟩ := accepted_some h
  refine ⟨lt_min one_pos hp, min_le_left _ _, fun u h0 h1 => ?_⟩
  obtain ⟨x, y⟩ := hu u h0 h1
  exact ⟨fun q => ⟨_, x q, rfl, rfl⟩, y⟩

/-- **C86, detailed balance of steps.** Between two good states the flows are equal: weight of the one state times the probability
that one step, over all moves, leads to the other. -/
theorem C86_balance (hP : P.Wf) (hf : PosFactors P) (gd : GoodState P d) (ge : GoodState P e) :
    stateWeight P d * goes P d e = stateWeight P e * goes P e d := goes_balance hP hf gd ge

/-- **C86, a step leads somewhere.** The probabilities of the steps from a state are not negative and add up to one. -/
theorem C86_total (hP : P.Wf) (hX : Around P X y) : (∀ e, 0 ≤ stepProb P y e) ∧ ∑ x ∈ X, stepProb P y x = 1 :=
  ⟨fun _ => stepProb_nonneg hP (hX.good y hX.mem).inv, stepProb_sum hP hX⟩

/-- **C86, partial: the target distribution is stationary.** If a state is drawn with probability proportional to its weight and
then one step is made, then the state `y` is met again with probability proportional to its weight: all steps from the states around `y`
to `y`, including the rejected ones, add up to it.

Full statement: for all states that runs reach. Missing: diagrams of order 0 with an instantaneous line and what comes after them; there
the code violates the balance (`C86_refuted`). -/
theorem C86_stationary_partial (hP : P.Wf) (hf : PosFactors P) (hX : Around P X y) :
    0 < stateWeight P y ∧ ∑ x ∈ X, stateWeight P x * stepProb P x y = stateWeight P y :=
  ⟨stateWeight_pos hP hf (hX.good y hX.mem).inv, stationary hP hf hX⟩

/-- **C86, the sum is over all states.** Every good state from which a step leads to `y` is in the set around `y`, up to the cells. -/
theorem C86_sources (hP : P.Wf) (hf : PosFactors P) (hX : Around P X y) (gd : GoodState P d) (h : goes P d y ≠ 0) :
    ∃ x ∈ X, SameUpToCells d x := around_all hP hf hX gd h

/-- **C86, partial: there is such a set.** Around every good state, unless it is a diagram of order 1 from which an instantaneous
line can be taken to order 0. -/
theorem C86_around_partial (hP : P.Wf) (hs : SmallLattice P) (gd : GoodState P y)
    (h1 : y.order = 1 → y.worm.exist = false → y.hasGamma = 0 → NoDelta y) : ∃ X, Around P X y :=
  exists_around hP hs gd h1

/-- **C86, runs lead to good states.** -/
theorem C86_good (hP : P₀.Wf) (hS : StartOk P₀) (h : ReachD P₀ c) (hg : OnGrid c.P c.d) (h0 : c.d.order = 0 → NoDelta c.d) :
    GoodState c.P c.d :=
  ⟨(h.reach.inv hP hS).2, (h.reach.spins hP hS).1, (h.reach.spins hP hS).2, h.reach.siteG hP hS, h.deltaTau hP hS, hg, h0⟩

end

/-! ### Concrete cases -/

theorem demo_small : SmallLattice demoP := ⟨by norm_num [demoP], by norm_num [demoP], by norm_num [demoP]⟩

/-- The hypotheses are met: a diagram of order 3 with worm and instantaneous line is a good state; there is a set around it, with a
diagram of order 2 to which a step leads. -/
example : ∃ (y : Diag ℚ ℚ) (X : Finset (Diag ℚ ℚ)), PosFactors demoP ∧ GoodState demoP y ∧ Around demoP X y ∧ y.order = 3 ∧
    y.fl.wDelta 2 = true ∧ ∃ x ∈ X, x.order = 2 ∧ 0 < goes demoP y x := by
  obtain ⟨c, ec, hc⟩ := Res.test_ok (r := startChain demoP >>= fun c => hopNZ c [mkWorm 0 5, addInt 20 1, addDel 9 1])
    (f := fun c => c.d.order == 3 && c.d.fl.wDelta 2 &&
      ((Move.del true OUT).run demoP c.d 0).test fun out => out.tag == .accept && out.d.order == 2) (by decide +kernel)
  obtain ⟨s, es, ec⟩ := bind_eq_ok ec
  obtain ⟨d, ed, es⟩ := bind_eq_ok es
  cases es
  have hr := reachD_hops (ReachD.start demoRaw d demoRaw_fresh ed) ec
  have hp : c.P = demoP := hopNZ_P ec
  have hg : OnGrid c.P c.d := C58_grid demoP_wf demoP_start demoRaw_fresh ed
    (hopNZ_hopsD demoP_wf demoP_start (ReachD.start demoRaw d demoRaw_fresh ed) (.refl _) ec).hops
  simp only [Bool.and_eq_true, beq_iff_eq] at hc
  obtain ⟨⟨h1, h2⟩, h3⟩ := hc
  have gy := C86_good demoP_wf demoP_start hr hg (by omega)
  rw [hp] at gy
  obtain ⟨out, e2, h4⟩ := Res.test_ok h3
  simp only [Bool.and_eq_true, beq_iff_eq] at h4
  obtain ⟨X, hX⟩ := C86_around_partial demoP_wf demo_small gy (by omega)
  have hm : (Move.del true OUT : Move ℚ) ∈ allMoves demoP c.d := (mem_allMoves demoP_wf).2 ⟨⟨by decide, trivial⟩, trivial⟩
  have ha := accepted_run e2 h4.1
  obtain ⟨x, hx, q⟩ := hX.cover _ hm _ _ ha
  refine ⟨c.d, X, demoP_pos, gy, hX, h1, h2, x, hx, ?_, ?_⟩
  · obtain ⟨_, _, _, q⟩ := q
    rw [q.order, h4.2]
  · refine Finset.sum_pos' (fun m _ => flow_nonneg demoP_wf gy.inv m) ⟨_, hm, ?_⟩
    rw [flow_some ha q]
    obtain ⟨_, _, _, _, _, h0⟩ := accepted_ex ha
    exact mul_pos (chance_pos demoP_wf gy.inv _) h0

/-- **C86 is violated after visits of the order-0 sector with an instantaneous line.** There are two diagrams of order 2, the first
reachable, such that a step leads from the first to the second and none leads back. -/
theorem C86_refuted : ∃ (c : Chain ℚ ℚ) (e : Diag ℚ ℚ), Reach demoP c ∧ PosFactors c.P ∧ OnGrid c.P c.d ∧
    0 < stateWeight c.P c.d * goes c.P c.d e ∧ stateWeight c.P e * goes c.P e c.d = 0 := by
  let os := [mkWorm 0 5, addDel 9 1, rmWorm, mkWorm 1 30, delInt 0, rmWorm, goZero, goOne, mkWorm 0 7, addInt 40 1, rmWorm]
  have hv : (demoRun demoP os).test (fun c => decide (c.d.W.name 1 < c.d.W.avail) && c.d.fl.wDelta 1 &&
      (c.d.order == 2) && (c.d.co.tau (c.d.sh.wV 1 IN) != c.d.co.tau (c.d.sh.wV 1 OUT)) &&
      ((Move.delta2cont 1 (1/4)).run demoP c.d 0).test fun out => out.tag == .accept && deltaTauB out.d && out.d.order == 2) = true := by
    decide +kernel
  obtain ⟨c, e, hc⟩ := Res.test_ok hv
  have hr := demoRun_reach e
  obtain ⟨c0, e0, e3⟩ := bind_eq_ok e
  obtain ⟨d, ed, e4⟩ := bind_eq_ok e0
  cases e4
  have hP : c.P = demoP := hop_P e3
  have hg : OnGrid c.P c.d := C58_grid demoP_wf demoP_start demoRaw_fresh ed ⟨_, e3⟩
  have hi := (hr.inv demoP_wf demoP_start).2
  rw [hP] at hi
  simp only [Bool.and_eq_true] at hc
  obtain ⟨⟨⟨⟨c1, c2⟩, c3⟩, c4⟩, c5⟩ := hc
  obtain ⟨out, e2, h2⟩ := Res.test_ok c5
  simp only [Bool.and_eq_true, beq_iff_eq] at h2
  obtain ⟨⟨h2, h3⟩, h4⟩ := h2
  simp at c1 c3 c4
  have hw : 1 ∈ c.d.W.live := Bundle.mem_live.2 ⟨by norm_num, c1⟩
  have hm : (Move.delta2cont 1 (1/4) : Move ℚ) ∈ allMoves demoP c.d := (mem_allMoves demoP_wf).2
    ⟨⟨by decide, hw, ⟨by norm_num, by norm_num [demoP]⟩⟩, ⟨1073741824, by norm_num, by norm_num [demoP]⟩⟩
  have ha := accepted_run e2 h2
  have hio := accepted_inv demoP_wf hi hm ha
  refine ⟨c, out.d, hr, hP ▸ demoP_pos, hg, ?_, ?_⟩
  · rw [hP]
    refine mul_pos (stateWeight_pos demoP_wf demoP_pos hi)
      (Finset.sum_pos' (fun m _ => flow_nonneg demoP_wf hi m) ⟨_, hm, ?_⟩)
    rw [flow_some ha (SameUpToCells.refl _)]
    obtain ⟨_, _, _, _, _, h0⟩ := accepted_ex ha
    exact mul_pos (chance_pos demoP_wf hi _) h0
  · rw [hP]
    refine mul_eq_zero_of_right _ (Finset.sum_eq_zero fun m hm' => ?_)
    by_contra hne
    obtain ⟨a, d₂, ha₂, s⟩ := flow_ne hne
    have hi₂ := accepted_inv demoP_wf hio hm' ha₂
    obtain ⟨fV, fG, fW, s⟩ := s.symm hi₂
    obtain ⟨v, ht⟩ := (mem_allMoves demoP_wf).1 hm'
    obtain ⟨out₂, er₂, hac₂, -, rfl, -⟩ := accepted_ex ha₂
    obtain ⟨z, hz⟩ := urn_zero (Q := ℚ)
    obtain ⟨o, ho⟩ := Move.words demo_small hio v ht z
    rw [hz, er₂] at ho
    have hd := (runOp_kept demoP_wf hio m.op o _ ho hac₂).1 (by omega) (deltaTauB_spec h3)
    exact c4 (s.deltaTau hd (by omega) hi.topo.wV_mem 1 hw c2)

end Feyn
