import Verif.Proof.Effect
import Verif.Proof.Extra
import Verif.Proof.Loops
import Verif.Proof.Select
import Verif.Proof.Sites
import Verif.Spec.Loops
import Verif.Props.Demo

/-!
# Fermion loops, instantaneous lines, spins at interactions, choice of the operation (C03, C06, C09, C44, C45, C50)
-/

namespace Feyn

section
variable {Q F : Type} [Field Q] [LinearOrder Q] [IsStrictOrderedRing Q] [Field F]
variable {P₀ : Params Q F} {c : Chain Q F}

/-- **C03, second part.** The spin emitted by the vertices at the two ends of an interaction line (spin of the
outgoing propagator minus spin of the incoming one) adds up to zero, except that `masha` emits the spin of the worm and
`ira` absorbs it. -/
theorem C03_spin_at_interactions (hP : P₀.Wf) (hS : StartOk P₀) (h : Reach P₀ c) (w : ℕ) (hw : w ∈ c.d.W.live) :
    let up : Spin → ℤ := fun s => if s = UP then 1 else 0
    let emit : ℕ → ℤ := fun v => up (c.d.co.spin v OUT) - up (c.d.co.spin v IN)
    emit (c.d.sh.wV w IN) + emit (c.d.sh.wV w OUT) =
      (if c.d.worm.exist = true ∧ c.d.sh.vW c.d.worm.masha = w then c.d.worm.dSpin else 0)
        - (if c.d.worm.exist = true ∧ c.d.sh.vW c.d.worm.ira = w then c.d.worm.dSpin else 0) :=
  (h.spins hP hS).1 w hw

/-- The right hand side is not always zero: worm ends on different interactions. -/
example : ∃ c, Reach demoP c ∧ c.d.worm.exist = true ∧ c.d.worm.dSpin ≠ 0 ∧
    c.d.sh.vW c.d.worm.masha ∈ c.d.W.live ∧ c.d.sh.vW c.d.worm.masha ≠ c.d.sh.vW c.d.worm.ira := by
  obtain ⟨c, h, hf⟩ := demo_reach (P := demoP) [mkWorm 0 5, addInt 20 1, hopWords 19 2 [0, zeroWord]]
    (fun c => c.d.worm.exist && c.d.worm.dSpin != 0 && c.d.sh.vW c.d.worm.masha != c.d.sh.vW c.d.worm.ira)
    (by decide +kernel)
  simp at hf
  have hi := (h.inv demoP_wf demoP_start).2
  exact ⟨c, h, hf.1.1, hf.1.2, hi.topo.vW_mem _ (hi.worm.masha_mem hf.1.1), hf.2⟩

/-- **C06.** The stored fermion sign is `-(-1)^L` with `L` the number of closed fermion loops. -/
theorem C06_fermion_sign (hP : P₀.Wf) (hS : StartOk P₀) (h : Reach P₀ c) :
    c.d.sfl = -(-1) ^ (fermiLoops c.d.Ver.live c.d.sh).ncard := by
  have hi := (h.inv hP hS).2
  refine sign_of_loops hi.sign (fun v hv => Bundle.live_lt hv)
    (fun v hv => hi.topo.gV_mem _ (hi.topo.vG_mem v hv OUT) OUT) ?_
  rw [Bundle.card_live hi.count.verWf, hi.count.ver]
  exact even_two_mul _

/-- Both signs occur. -/
example : (∃ c, Reach demoP c ∧ c.d.sfl = 1) ∧ (∃ c, Reach demoP c ∧ c.d.sfl = -1) := by
  constructor
  · obtain ⟨c, h, hf⟩ := demo_reach (P := demoP) [] (fun c => c.d.sfl == 1) (by decide +kernel)
    exact ⟨c, h, by simpa using hf⟩
  · obtain ⟨c, h, hf⟩ := demo_reach (P := demoP) [mkWorm 0 5, hopWords 19 4 [1, zeroWord]] (fun c => c.d.sfl == -1)
      (by decide +kernel)
    exact ⟨c, h, by simpa using hf⟩

/-- **C09, the part that holds unconditionally.** Instantaneous lines are neither measured nor composite. -/
theorem C09_delta_flags (hP : P₀.Wf) (hS : StartOk P₀) (h : Reach P₀ c) (w : ℕ) (hw : w ∈ c.d.W.live)
    (hd : c.d.fl.wDelta w = true) : c.d.fl.wMeas w = false ∧ c.d.fl.wGam w = false :=
  (h.inv hP hS).2.delta w hw hd

example : ∃ c, Reach demoP c ∧ ∃ w ∈ c.d.W.live, c.d.fl.wDelta w = true := by
  obtain ⟨c, h, hf⟩ := demo_reach (P := demoP) demoOps (fun c => decide (c.d.W.name 1 < c.d.W.avail) && c.d.fl.wDelta 1)
    (by decide +kernel)
  simp at hf
  exact ⟨c, h, 1, Bundle.mem_live.2 ⟨by norm_num, hf.1⟩, hf.2⟩

/-- **C09, partial.** Full statement: in every reachable state both ends of each instantaneous line have the same time.
Missing: runs in which the simulation is in the order-0 sector while its single line is instantaneous; for them the
statement is false, see `C09_refuted`. -/
theorem C09_delta_equal_times_partial (hP : P₀.Wf) (hS : StartOk P₀) (h : ReachD P₀ c) (w : ℕ) (hw : w ∈ c.d.W.live)
    (hd : c.d.fl.wDelta w = true) : c.d.co.tau (c.d.sh.wV w IN) = c.d.co.tau (c.d.sh.wV w OUT) :=
  h.deltaTau hP hS w hw hd

/-- The hypotheses are met by a diagram of order 3 with an instantaneous line. -/
example : ∃ c, ReachD demoP c ∧ (c.d.order == 3 && c.d.fl.wDelta 1 && decide (1 ∈ c.d.W.live)) = true :=
  demo_reachD demoOpsFree _ (by decide +kernel)

/-- **C09 is violated**: `JumpBackToOrder1` (`markov.cpp` 1607-1661) gives the two vertices independent times even
if the line is instantaneous. The diagram reached is of order 1, without worm, and its instantaneous line has end times
1/2 and 1/4. -/
theorem C09_refuted : ∃ c, Reach demoP c ∧ c.d.order = 1 ∧ c.d.worm.exist = false ∧ ∃ w ∈ c.d.W.live,
    c.d.fl.wDelta w = true ∧ c.d.co.tau (c.d.sh.wV w IN) ≠ c.d.co.tau (c.d.sh.wV w OUT) := by
  obtain ⟨c, h, hf⟩ := demo_reach (P := demoP)
    [mkWorm 0 5, addDel 9 1, rmWorm, mkWorm 1 30, delInt 0, rmWorm, goZero, goOne]
    (fun c => c.d.order == 1 && !c.d.worm.exist && decide (c.d.W.name 1 < c.d.W.avail) && c.d.fl.wDelta 1 &&
      c.d.co.tau (c.d.sh.wV 1 IN) != c.d.co.tau (c.d.sh.wV 1 OUT)) (by decide +kernel)
  simp at hf
  obtain ⟨⟨⟨⟨h1, h2⟩, h3⟩, h4⟩, h5⟩ := hf
  exact ⟨c, h, h1, h2, 1, Bundle.mem_live.2 ⟨by norm_num, h3⟩, h4, h5⟩

/-! ### C44 -/

/-- **C50.** Both ends of each propagator are on the same site, hence all vertices of a fermion loop are. -/
theorem C50_propagators_are_local (hP : P₀.Wf) (hS : StartOk P₀) (h : Reach P₀ c) :
    (∀ g ∈ c.d.G.live, c.d.co.r (c.d.sh.gV g IN) = c.d.co.r (c.d.sh.gV g OUT)) ∧
    ∀ v ∈ c.d.Ver.live, ∀ u ∈ loopOf c.d.sh v, c.d.co.r u = c.d.co.r v := by
  have hs := h.siteG hP hS
  refine ⟨fun g hg => hs g hg IN, fun v hv u ⟨k, hk⟩ => ?_⟩
  rw [← hk]
  exact (hs.loop (h.inv hP hS).2 hv k).2

/-- Different loops may be on different sites. -/
example : ∃ c, Reach demoP c ∧ ∃ v ∈ c.d.Ver.live, ∃ u ∈ c.d.Ver.live, c.d.co.r u ≠ c.d.co.r v := by
  obtain ⟨c, h, hf⟩ := demo_reach (P := demoP)
    [mkWorm 0 5, hopWords 19 4 [1, zeroWord], addInt 20 1, addInt 35 1, rmWorm, hopWords 19 11 [0, 1, 1, 0, zeroWord]]
    (fun c => decide (c.d.Ver.name 0 < c.d.Ver.avail) && decide (c.d.Ver.name 1 < c.d.Ver.avail) &&
      c.d.co.r 0 != c.d.co.r 1) (by decide +kernel)
  simp at hf
  exact ⟨c, h, 1, Bundle.mem_live.2 ⟨by norm_num, hf.1.2⟩, 0, Bundle.mem_live.2 ⟨by norm_num, hf.1.1⟩, hf.2⟩

/-- **C44.** In a worm-free diagram of positive order the loop move returns and always proposes one new site for the list
`vs` of the vertices of the fermion loop of the picked vertex `v0`, each listed once. If the move is accepted exactly these
vertices are on the new site, and nothing else changes apart from the weights and the phase; if it is not accepted nothing
changes. -/
theorem C44_loop_move (hP : P₀.Wf) (hS : StartOk P₀) (h : Reach P₀ c) (h0 : c.d.order ≠ 0)
    (hw : c.d.worm.exist = false) (o : Words) :
    ∃ v0 out, v0 ∈ c.d.Ver.live ∧ c.d.Ver.pick (o 0) = .ok v0 ∧ runOp c.P .changeRLoop o c.d = .ok out ∧
      (out.tag = .reject ∨ out.tag = .accept) ∧
      (out.tag = .reject → out.d = c.d) ∧
      (out.tag = .accept → ∃ (vs : List ℕ) (newR : Site), vs.Nodup ∧ (∀ u, u ∈ vs ↔ u ∈ loopOf c.d.sh v0) ∧
        (∀ u ∈ vs, u ∈ c.d.Ver.live) ∧ SiteIn c.P newR ∧
        out.d.co.r = (fun u => if u ∈ vs then newR else c.d.co.r u) ∧
        out.d = { c.d with co := { c.d.co with r := out.d.co.r }, wt := out.d.wt, weight := out.d.weight,
                           phase := out.d.phase }) := by
  obtain ⟨hPc, hi⟩ := h.inv hP hS
  obtain ⟨v0, res, newR, e0, m0, hR, -, hn, hs⟩ := changeRLoop_spec hPc hi o (by simp [h0, hw])
  have hop : runOp c.P .changeRLoop o c.d = changeRLoop c.P o c.d := rfl
  cases res with
  | none =>
    obtain ⟨⟨k, hk⟩, e⟩ := hn rfl
    exact absurd ((h.siteG hP hS).loop hi m0 k).2 hk
  | some p =>
    obtain ⟨vs, fw⟩ := p
    obtain ⟨hr, e⟩ := hs vs fw rfl
    have hlt : c.d.order < MAX_ORDER := by
      have := hi.count.order; have := hi.count.n_le; have := hPc.lt_max; omega
    unfold metropolis at e
    rw [if_pos hlt] at e
    split at e
    · refine ⟨v0, _, m0, e0, by rw [hop, e]; rfl, Or.inr rfl, fun h => (by cases h), fun _ => ?_⟩
      refine ⟨vs, newR, hr.nodup, fun u => ?_, hr.mem, hR, rfl, rfl⟩
      rw [hr.orbit u]
      exact ⟨fun ⟨k, hk⟩ => ⟨k, hk.symm⟩, fun ⟨k, hk⟩ => ⟨k, hk.symm⟩⟩
    · exact ⟨v0, _, m0, e0, by rw [hop, e], Or.inl rfl, fun _ => rfl, fun h => by cases h⟩

/-- The loop move is accepted in the demonstration and moves the loop to another site. -/
example : ∃ c, Reach demoP c ∧ c.d.order ≠ 0 ∧ c.d.worm.exist = false ∧
    ∃ o out, runOp demoP .changeRLoop o c.d = .ok out ∧ out.tag = .accept ∧ out.d.co.r 0 ≠ c.d.co.r 0 := by
  obtain ⟨c, h, hf⟩ := demo_reach (P := demoP) demoOpsFree (fun c => c.d.order != 0 && !c.d.worm.exist &&
    (runOp demoP .changeRLoop (fun i => wordOf ([0, 0, 1, 0, zeroWord].getD i 0)) c.d).test
      (fun out => out.tag == .accept && out.d.co.r 0 != c.d.co.r 0)) (by decide +kernel)
  simp at hf
  obtain ⟨out, e, ht⟩ := Res.test_ok hf.2
  simp at ht
  exact ⟨c, h, hf.1.1, hf.1.2, _, out, e, ht⟩

end

/-! ### C45 -/

section
variable {Q : Type} [Field Q] [LinearOrder Q] [IsStrictOrderedRing Q]

/-- **C45.** For call probabilities `p 0, …, p (n-1)` that are non-negative and add up to 1 and each `x` in `[0,1)`
exactly one operation is selected, and operation `j` is selected exactly for the `x` in the interval of length `p j`
starting at the sum of the probabilities before `j`. -/
theorem C45_selection (p : ℕ → Q) (n : ℕ) (hp : ∀ i, 0 ≤ p i) (hs : ∑ i ∈ Finset.range n, p i = 1) (x : Q)
    (h0 : 0 ≤ x) (h1 : x < 1) :
    (∃ j < n, selectIdx p n x = some j) ∧
    ∀ j < n, selectIdx p n x = some j ↔
      ∑ i ∈ Finset.range j, p i ≤ x ∧ x < ∑ i ∈ Finset.range j, p i + p j := by
  obtain ⟨j, hj, h2, h3⟩ := exists_interval p n x h0 (by rw [hs]; exact h1)
  have e := selectIdx_spec p hp n x j hj h2 h3
  refine ⟨⟨j, hj, e⟩, fun i hi => ⟨fun ei => ?_, fun ⟨h4, h5⟩ => ?_⟩⟩
  · rw [e] at ei
    cases ei
    rw [← Finset.sum_range_succ]
    exact ⟨h2, h3⟩
  · exact selectIdx_spec p hp n x i hi h4 (by rw [Finset.sum_range_succ]; exact h5)

example : selectIdx (fun i => if i = 0 then (1 / 2 : ℚ) else if i = 1 then 1 / 3 else if i = 2 then 1 / 6 else 0) 3 (2 / 3) =
    some 1 := by decide +kernel

variable {F : Type} [Field F]

/-- **C45 for the program.** Every hop runs exactly one of the `n = 19` (or 23) enabled operations, namely the one whose
number is the integer part of `n * x`, where `x` is the uniform random number drawn first. -/
theorem C45_hop_runs_one_operation (c : Chain Q F) (o : Words) :
    ∃ op : Op, hopOne c o = (runOp c.P op (fun i => o (i + 1)) c.d >>= fun out => .ok (c.book op out)) ∧
      op.idx < (if c.P.runGamma3 then 23 else 19) ∧
      (op.idx : Q) ≤ (if c.P.runGamma3 then 23 else 19) * urn Q (o 0) ∧
      (if c.P.runGamma3 then 23 else 19) * urn Q (o 0) < (op.idx : Q) + 1 := by
  obtain ⟨op, e, h1, h2, h3⟩ := selectOp_spec c.P (urn Q (o 0)) (urn_nonneg _) (urn_lt_one _)
  have hn : (0 : Q) < (numOps c.P : Q) := Nat.cast_pos.2 (numOps_pos c.P)
  have hq : ((numOps c.P : ℕ) : Q) = if c.P.runGamma3 then 23 else 19 := by
    unfold numOps; split <;> norm_num
  refine ⟨op, ?_, ?_, ?_, ?_⟩
  · unfold hopOne
    rw [e]
  · unfold numOps at h1
    exact h1
  · rw [← hq, mul_comm]
    exact (div_le_iff₀ hn).1 h2
  · rw [← hq, mul_comm]
    have := (lt_div_iff₀ hn).1 h3
    push_cast at this
    exact this

/-- Operation 7 of 19 is selected by a word with `urn` in the middle of its interval. -/
example : selectOp demoP (urn ℚ (hopWords 19 7 [] 0)) = some .addDelta := by decide +kernel

end
end Feyn
