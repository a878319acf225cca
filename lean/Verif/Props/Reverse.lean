import Verif.Proof.RevMain
import Verif.Props.Chain
import Verif.Props.Env

/-!
# C16: detailed balance
-/

namespace Feyn

set_option linter.unusedSectionVars false

section
variable {Q F : Type} [Field Q] [LinearOrder Q] [IsStrictOrderedRing Q] [Field F]
variable {P₀ : Params Q F} {c : Chain Q F}

/-- **C16, moves.** Each call of an update in a reachable state, the two disabled updates excepted, is a move: the update
with choices in their ranges and a number of `[0, 1)` to compare with the acceptance ratio. -/
theorem C16_calls_are_moves (hP : P₀.Wf) (hS : StartOk P₀) (h : Reach P₀ c) {op : Op} (hi : op.idx < numOps c.P)
    (h1 : op ≠ .changeRVertex) (h2 : op ≠ .changeSpin) (o : Words) :
    ∃ (m : Move Q) (u : Q), m.op = op ∧ m.Valid c.P c.d ∧ 0 ≤ u ∧ u < 1 ∧ runOp c.P op o c.d = m.run c.P c.d u := by
  obtain ⟨m, w, e, hv, -, hr⟩ := runOp_isMove (h.inv hP hS).1 (h.inv hP hS).2 hi h1 h2 o
  exact ⟨m, urn Q w, e, hv, urn_nonneg w, urn_lt_one w, hr⟩

/-- **C16, partial.** Take an accepted move from a reachable state, with positive reweighting factors. The reverse move is
a possible move of the new state, and its reverse is the move taken. Called in the new state it is a proposal with the
inverse acceptance ratio, and accepting it restores the old state up to the cells in which the components are stored. The
acceptance ratio is the quotient of the target distribution times the proposal densities.

Full statement: without the hypothesis `hdt`. Missing: removing an instantaneous line whose ends have different times,
and making it continuous; such lines exist after a visit of the order-0 sector (`C09_refuted`) and the moves can then not be
undone (`C16_refuted_unequal_times`). -/
theorem C16_detailed_balance_partial (hP : P₀.Wf) (hS : StartOk P₀) (h : Reach P₀ c) (hf : PosFactors c.P) {m : Move Q}
    (hdt : m.op = .delDelta ∨ m.op = .delta2cont → DeltaTau c.d)
    (hm : m.Valid c.P c.d) {u : Q} (hu : 0 ≤ u) {out : Out Q F} (e : m.run c.P c.d u = .ok out) (ha : out.tag = .accept) :
    (m.rev c.d).Valid c.P out.d ∧ (m.rev c.d).rev out.d = m ∧
    (∃ d'', Proposes ((m.rev c.d).run c.P out.d) out.prob⁻¹ d'' ∧ SameUpToCells c.d d'') ∧
    out.prob * (target c.P c.d * m.density c.P c.d) = target c.P out.d * (m.rev c.d).density c.P out.d :=
  Move.bal (h.inv hP hS).1 hf (h.inv hP hS).2 (h.spins hP hS).2 (h.siteG hP hS) hdt hm hu e ha

/-- **C16 without visits of the order-0 sector by instantaneous lines.** There the statement holds for all moves. -/
theorem C16_detailed_balance (hP : P₀.Wf) (hS : StartOk P₀) (h : ReachD P₀ c) (hf : PosFactors c.P) {m : Move Q}
    (hm : m.Valid c.P c.d) {u : Q} (hu : 0 ≤ u) {out : Out Q F} (e : m.run c.P c.d u = .ok out) (ha : out.tag = .accept) :
    (m.rev c.d).Valid c.P out.d ∧ (m.rev c.d).rev out.d = m ∧
    (∃ d'', Proposes ((m.rev c.d).run c.P out.d) out.prob⁻¹ d'' ∧ SameUpToCells c.d d'') ∧
    out.prob * (target c.P c.d * m.density c.P c.d) = target c.P out.d * (m.rev c.d).density c.P out.d :=
  C16_detailed_balance_partial hP hS h.reach hf (fun _ => h.deltaTau hP hS) hm hu e ha

/-- **C16, the probability flows balance.** Target distribution times proposal density times acceptance probability is the
same for the move and for its reverse, and it is not zero. -/
theorem C16_flow (hP : P₀.Wf) (hS : StartOk P₀) (h : ReachD P₀ c) (hf : PosFactors c.P) {m : Move Q}
    (hm : m.Valid c.P c.d) {u : Q} (hu : 0 ≤ u) {out : Out Q F} (e : m.run c.P c.d u = .ok out) (ha : out.tag = .accept) :
    0 < out.prob ∧ 0 < target c.P c.d ∧ 0 < target c.P out.d ∧
    target c.P c.d * m.density c.P c.d * min 1 out.prob =
      target c.P out.d * (m.rev c.d).density c.P out.d * min 1 out.prob⁻¹ := by
  obtain ⟨hPc, hi⟩ := h.reach.inv hP hS
  obtain ⟨-, -, ⟨d'', hp, -⟩, hb⟩ := C16_detailed_balance hP hS h hf hm hu e ha
  have hi' : Inv c.P out.d := by
    obtain ⟨o', e', hi, -⟩ := Move.good hPc hi hm hu
    rw [e] at e'; cases e'; exact hi
  have t1 := target_pos hPc hf hi
  have t2 := target_pos hPc hf hi'
  have hpos : 0 < out.prob := by
    have q1 := mul_pos t1 (density_pos hPc hi m)
    have q2 := mul_pos t2 (density_pos hPc hi' (m.rev c.d))
    rw [← hb] at q2
    exact (pos_iff_pos_of_mul_pos q2).2 q1
  refine ⟨hpos, t1, t2, ?_⟩
  rcases le_total 1 out.prob with q | q
  · rw [min_eq_left q, min_eq_right (inv_le_one_of_one_le₀ q), mul_one, ← hb]
    field_simp
  · rw [min_eq_right q, min_eq_left ((one_le_inv₀ hpos).2 q), mul_one, ← hb]
    ring

end

/-! ### Concrete cases -/

theorem demoP_pos : PosFactors demoP := by
  constructor <;> simp [demoP]

theorem hopNZ_P {os : List Words} : ∀ {c c' : Chain ℚ ℚ}, hopNZ c os = .ok c' → c'.P = c.P := by
  induction os with
  | nil => intro c c' e; cases e; rfl
  | cons o os ih =>
    intro c c' e
    simp only [hopNZ] at e
    split_ifs at e
    obtain ⟨c1, e1, e2⟩ := bind_eq_ok e
    rw [ih e2, hopOne_P e1]

/-- A state of the demonstration run in which a given move is accepted. -/
theorem demo_move (os : List Words) (m : Move ℚ) (f : Out ℚ ℚ → Bool)
    (hv : (startChain demoP >>= fun c => hopNZ c os).test (fun c =>
      (m.run demoP c.d 0).test fun out => out.tag == .accept && f out) = true)
    (hm : ∀ c, m.Valid demoP c) :
    ∃ (c : Chain ℚ ℚ) (out : Out ℚ ℚ), ReachD demoP c ∧ PosFactors c.P ∧ m.Valid c.P c.d ∧
      m.run c.P c.d 0 = .ok out ∧ out.tag = .accept ∧ f out = true := by
  obtain ⟨c, e, hc⟩ := Res.test_ok hv
  obtain ⟨out, e2, h2⟩ := Res.test_ok hc
  have hP : c.P = demoP := by
    obtain ⟨c0, e0, e3⟩ := bind_eq_ok e
    rw [hopNZ_P e3]
    obtain ⟨d, -, e4⟩ := bind_eq_ok e0
    cases e4; rfl
  simp at h2
  refine ⟨c, out, ?_, hP ▸ demoP_pos, hP ▸ hm c.d, hP ▸ e2, h2.1, h2.2⟩
  obtain ⟨c0, e0, e3⟩ := bind_eq_ok e
  obtain ⟨d, e1, e4⟩ := bind_eq_ok e0
  cases e4
  exact reachD_hops (ReachD.start demoRaw d demoRaw_fresh e1) e3

/-- The hypotheses are met: an interaction is added to a diagram of order 2; the ratio is 1. -/
example : ∃ (c : Chain ℚ ℚ) (out : Out ℚ ℚ), ReachD demoP c ∧ PosFactors c.P ∧
    (Move.add false 20 OUT IN (1/4) (3/4) : Move ℚ).Valid c.P c.d ∧
    (Move.add false 20 OUT IN (1/4) (3/4)).run c.P c.d 0 = .ok out ∧ out.tag = .accept ∧
    (out.d.order == 3 && out.prob == 1) = true :=
  demo_move [mkWorm 0 5, addDel 9 1] _ _ (by decide +kernel) fun d =>
    ⟨by decide, ⟨by norm_num, by norm_num⟩, ⟨by norm_num, by norm_num [demoP]⟩, ⟨by norm_num, by norm_num [demoP]⟩, by simp⟩

/-- The hypotheses are met by the removal of an instantaneous line from a diagram of order 3. -/
example : ∃ (c : Chain ℚ ℚ) (out : Out ℚ ℚ), ReachD demoP c ∧ PosFactors c.P ∧
    (Move.del true OUT : Move ℚ).Valid c.P c.d ∧ (Move.del true OUT).run c.P c.d 0 = .ok out ∧ out.tag = .accept ∧
    (out.d.order == 2) = true :=
  demo_move [mkWorm 0 5, addInt 20 1, addDel 9 1] _ _ (by decide +kernel) fun d => ⟨by decide, trivial⟩

/-- All instantaneous lines have ends of equal times. -/
def deltaTauB (d : Diag ℚ ℚ) : Bool :=
  (List.range 20).all fun w => !(decide (d.W.name w < d.W.avail)) || !d.fl.wDelta w ||
    d.co.tau (d.sh.wV w IN) == d.co.tau (d.sh.wV w OUT)

theorem deltaTauB_spec {d : Diag ℚ ℚ} (h : deltaTauB d = true) : DeltaTau d := by
  intro w hw hd
  obtain ⟨h1, h2⟩ := Bundle.mem_live.1 hw
  have := List.all_eq_true.1 h w (List.mem_range.2 h1)
  simpa [h2, hd] using this

theorem SameState.deltaTau {d d' : Diag ℚ ℚ} {fV fG fW : ℕ → ℕ} (s : SameState d d' fV fG fW) (h : DeltaTau d')
    (ho : d.order ≠ 0) (hm : ∀ w ∈ d.W.live, ∀ e, d.sh.wV w e ∈ d.Ver.live) : DeltaTau d := by
  intro w hw hd
  have h1 := h (fW w) (s.w.mapsTo hw) (by rw [(s.wFl w hw).2.2.1]; exact hd)
  rw [s.wV w hw, s.wV w hw, (s.co ho _ (hm w hw IN)).2.1, (s.co ho _ (hm w hw OUT)).2.1] at h1
  exact h1

/-- **C16 is violated by instantaneous lines with different end times**, which `JumpBackToOrder1` produces
(`C09_refuted`): there is a reachable diagram of order 2 and an accepted `ChangeDeltaToContinuous` such that the reverse
move, `ChangeContinuousToDelta` on the same line, does not lead back, whatever the acceptance ratio. -/
theorem C16_refuted_unequal_times : ∃ (c : Chain ℚ ℚ) (m : Move ℚ) (out : Out ℚ ℚ), Reach demoP c ∧ PosFactors c.P ∧
    m.Valid c.P c.d ∧ m.run c.P c.d 0 = .ok out ∧ out.tag = .accept ∧
    ¬ ∃ p d'', 0 < p ∧ Proposes ((m.rev c.d).run c.P out.d) p d'' ∧ SameUpToCells c.d d'' := by
  let os := [mkWorm 0 5, addDel 9 1, rmWorm, mkWorm 1 30, delInt 0, rmWorm, goZero, goOne, mkWorm 0 7, addInt 40 1, rmWorm]
  have hv : (demoRun demoP os).test (fun c => decide (c.d.W.name 1 < c.d.W.avail) && c.d.fl.wDelta 1 &&
      (c.d.order == 2) && (c.d.co.tau (c.d.sh.wV 1 IN) != c.d.co.tau (c.d.sh.wV 1 OUT)) &&
      ((Move.delta2cont 1 (1/3)).run demoP c.d 0).test fun out => out.tag == .accept &&
        ((Move.cont2delta 1).run demoP out.d 0).test fun out' => deltaTauB out'.d) = true := by
    decide +kernel
  obtain ⟨c, e, hc⟩ := Res.test_ok hv
  have hP : c.P = demoP := by
    obtain ⟨c0, e0, e3⟩ := bind_eq_ok e
    rw [hop_P e3]
    obtain ⟨d, -, e4⟩ := bind_eq_ok e0
    cases e4; rfl
  have hr := demoRun_reach e
  simp only [Bool.and_eq_true] at hc
  obtain ⟨⟨⟨⟨c1, c2⟩, c3⟩, c4⟩, c5⟩ := hc
  obtain ⟨out, e2, h2⟩ := Res.test_ok c5
  simp only [Bool.and_eq_true] at h2
  obtain ⟨out', e3, h3⟩ := Res.test_ok h2.2
  simp at c1 c3 c4
  have hw : 1 ∈ c.d.W.live := Bundle.mem_live.2 ⟨by norm_num, c1⟩
  refine ⟨c, .delta2cont 1 (1/3), out, hr, hP ▸ demoP_pos, ?_, hP ▸ e2, by simpa using h2.1, ?_⟩
  · exact ⟨by rw [hP]; decide, hw, by rw [hP]; exact ⟨by norm_num, by norm_num [demoP]⟩⟩
  · rintro ⟨p, d'', hp, hpr, fV, fG, fW, s⟩
    have := (hpr 0).1 (Or.inr hp)
    rw [hP] at this
    rw [show (Move.delta2cont 1 (1/3) : Move ℚ).rev c.d = .cont2delta 1 from rfl, e3] at this
    cases this
    exact c4 (s.deltaTau (deltaTauB_spec h3) (by rw [c3]; norm_num)
      (hr.inv demoP_wf demoP_start).2.topo.wV_mem 1 hw c2)

end Feyn
