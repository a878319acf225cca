import Verif.Proof.Explore
import Verif.Props.Return

/-!
# C84: the positions of a diagram are explored completely
-/

namespace Feyn

set_option linter.unusedSectionVars false

section
variable {Q F : Type} [Field Q] [LinearOrder Q] [IsStrictOrderedRing Q] [Field F]
variable {P₀ : Params Q F} {c : Chain Q F}

theorem Inv.placement {P : Params Q F} {d : Diag Q F} (h : Inv P d) (hs : SiteGOk d) : Placement P d d.co.r d.co.tau :=
  ⟨fun v hv => (h.dom v hv).1, fun v hv => (h.dom v hv).2, fun g hg => hs g hg IN⟩

/-- **C84, times, sites and instantaneous lines.** From a diagram of order two or more without worm there are hops to the diagram
with the same lines and with any sites, any times of the generator and any instantaneous lines that it can have. -/
theorem C84_explore (hP : P₀.Wf) (hS : StartOk P₀) (hr : Reach P₀ c) (hs : SmallLattice c.P) (ho : 2 ≤ c.d.order)
    (hw : c.d.worm.exist = false) (hz : NoZeros c.P c.d) {r : ℕ → Site} {tau : ℕ → Q} {δ : ℕ → Bool} (ht : Target c.P c.d r tau δ) :
    ∃ c' : Chain Q F, Hops c c' ∧ c'.P = c.P ∧
      c'.d = place c.d c'.d.co.r c'.d.co.tau c'.d.fl.wDelta c'.d.wt c'.d.weight c'.d.phase ∧
      (∀ v ∈ c.d.Ver.live, c'.d.co.r v = r v ∧ c'.d.co.tau v = tau v) ∧ ∀ w ∈ c.d.W.live, c'.d.fl.wDelta w = δ w := by
  obtain ⟨hPc, hi⟩ := hr.inv hP hS
  have ha : At c.d c.d.co.r c.d.co.tau c.d.fl.wDelta c := ⟨hi, c.d.wt, c.d.weight, c.d.phase, rfl⟩
  obtain ⟨c', r', tau', δ', h1, h2, ⟨-, wt, we, ph, e⟩, h4, h5, h6⟩ := ha.goto hPc hs ho hw hz (hi.placement (hr.siteG hP hS)) ht
  refine ⟨c', h1, h2, by rw [e]; rfl, fun v hv => ⟨?_, ?_⟩, fun w hw => ?_⟩
  · rw [e]; exact h4 v hv
  · rw [e]; exact h5 v hv
  · rw [e]; exact h6 w hw

/-- **C84, continuous lines.** If no line is instantaneous, this is so for every order but zero. -/
theorem C84_continuous (hP : P₀.Wf) (hS : StartOk P₀) (hr : Reach P₀ c) (hs : SmallLattice c.P) (ho : c.d.order ≠ 0)
    (hw : c.d.worm.exist = false) (hδ : ∀ w ∈ c.d.W.live, c.d.fl.wDelta w = false) (hz : NoZeros c.P c.d) {r : ℕ → Site} {tau : ℕ → Q}
    (ht : Target c.P c.d r tau fun _ => false) :
    ∃ c' : Chain Q F, Hops c c' ∧ c'.P = c.P ∧
      c'.d = place c.d c'.d.co.r c'.d.co.tau c.d.fl.wDelta c'.d.wt c'.d.weight c'.d.phase ∧
      ∀ v ∈ c.d.Ver.live, c'.d.co.r v = r v ∧ c'.d.co.tau v = tau v := by
  obtain ⟨hPc, hi⟩ := hr.inv hP hS
  have ha : At c.d c.d.co.r c.d.co.tau c.d.fl.wDelta c := ⟨hi, c.d.wt, c.d.weight, c.d.phase, rfl⟩
  obtain ⟨c', r', tau', h1, h2, ⟨-, wt, we, ph, e⟩, -, h4, h5⟩ := ha.set hPc hs ho hw hz (hi.placement (hr.siteG hP hS)) hδ ht
  refine ⟨c', h1, h2, by rw [e]; rfl, fun v hv => ⟨?_, ?_⟩⟩
  · rw [e]; exact h4 v hv
  · rw [e]; exact h5 v hv

/-- **C84, the measuring line.** From a diagram without worm and composite line there are hops to the same diagram with any fermion line
as measuring line, provided some interaction line is continuous, and to the same diagram with any continuous interaction line as
measuring line. -/
theorem C84_mark (hP : P₀.Wf) (hS : StartOk P₀) (hr : Reach P₀ c) (hs : SmallLattice c.P) (hf : PosFactors c.P) (ho : c.d.order ≠ 0)
    (hw : c.d.worm.exist = false) (hγ : c.d.hasGamma = 0) (hz : MarkNoZeros c.P c.d) {w : ℕ} (hwl : w ∈ c.d.W.live)
    (hδ : c.d.fl.wDelta w = false) {g : ℕ} (hg : g ∈ c.d.G.live) :
    (∃ c' : Chain Q F, Hops c c' ∧ c'.P = c.P ∧ OtherMark c.d c'.d ∧ c'.d.measG = true ∧ c'.d.gMeasure = g) ∧
      ∃ c' : Chain Q F, Hops c c' ∧ c'.P = c.P ∧ OtherMark c.d c'.d ∧ c'.d.measG = false ∧ c'.d.wMeasure = w := by
  obtain ⟨hPc, hi⟩ := hr.inv hP hS
  cases hm : c.d.measG with
  | true =>
    obtain ⟨c₁, h1, h2, h3, h4, h5⟩ := mark_g2w hPc hs hf.polar hi ho hw hγ hz hm hwl hδ
    refine ⟨?_, c₁, h1, h2, h3, h4, h5⟩
    have h6 : OtherMark c.d c₁.d := h3
    unfold OtherMark at h6
    obtain ⟨c₂, k1, k2, k3, k4, k5⟩ := mark_w2g (c := c₁) (g := g) (h2 ▸ hPc) (h2 ▸ hs) (by rw [h2]; exact hf.polar)
      (h1.inv hPc hi).2 (by rw [h6]; exact ho) (by rw [h6]; exact hw) (by rw [h6]; exact hγ) (by rw [h2]; exact hz.keep h3) h4
      (by rw [h6]; exact hg)
    exact ⟨c₂, h1.trans k1, k2.trans h2, h3.trans k3, k4, k5⟩
  | false =>
    obtain ⟨c₁, h1, h2, h3, h4, h5⟩ := mark_w2g hPc hs hf.polar hi ho hw hγ hz hm hg
    refine ⟨⟨c₁, h1, h2, h3, h4, h5⟩, ?_⟩
    have h6 : OtherMark c.d c₁.d := h3
    unfold OtherMark at h6
    obtain ⟨c₂, k1, k2, k3, k4, k5⟩ := mark_g2w (c := c₁) (w := w) (h2 ▸ hPc) (h2 ▸ hs) (by rw [h2]; exact hf.polar)
      (h1.inv hPc hi).2 (by rw [h6]; exact ho) (by rw [h6]; exact hw) (by rw [h6]; exact hγ) (by rw [h2]; exact hz.keep h3) h4
      (by rw [h6]; exact hwl) (by rw [h6]; exact hδ)
    exact ⟨c₂, h1.trans k1, k2.trans h2, h3.trans k3, k4, k5⟩

end

/-! ### Concrete cases -/

theorem demo_gExpected (s : Shape) (co : Coord ℚ) (fl : Flags) (e : Ext ℚ) (g : ℕ) : gExpected demoP s co fl e g = 1 := by
  unfold gExpected gW0
  split_ifs <;> rfl

theorem demo_wExpected (s : Shape) (co : Coord ℚ) (fl : Flags) (e : Ext ℚ) (w : ℕ) : wExpected demoP s co fl e w = 1 := by
  unfold wExpected wW0
  dsimp only
  split_ifs <;> rfl

theorem demoRun_P {P : Params ℚ ℚ} (hP : P.Wf) (hS : StartOk P) {os : List Words} {c : Chain ℚ ℚ} (e : demoRun P os = .ok c) : c.P = P := by
  unfold demoRun startChain at e
  cases e1 : buildNew P demoRaw with
  | ok d =>
    simp only [e1, Res.ok_bind] at e
    obtain ⟨h1, h2⟩ := (Reach.start demoRaw d demoRaw_fresh e1).inv hP hS
    exact (Hops.inv h1 h2 ⟨os, e⟩).1
  | abort => simp [e1] at e
  | ub => simp [e1] at e

/-- The hypotheses are met by a diagram of order three, in which line 1 is instantaneous and vertex 0 is not on the site `(0, 1)`; the target has
all vertices on the site `(0, 1)` at the time `1/2`, with line 2 as the only instantaneous line. -/
example : ∃ c : Chain ℚ ℚ, Reach demoP c ∧ SmallLattice c.P ∧ 2 ≤ c.d.order ∧ c.d.worm.exist = false ∧ NoZeros c.P c.d ∧ PosFactors c.P ∧
    MarkNoZeros c.P c.d ∧ c.d.hasGamma = 0 ∧ c.d.fl.wDelta 1 = true ∧ c.d.co.r 0 ≠ ⟨0, 0, 1⟩ ∧ 2 ∈ c.d.W.live ∧
    c.d.fl.wDelta 2 = false ∧ Target c.P c.d (fun _ => ⟨0, 0, 1⟩) (fun _ => 1 / 2) (fun w => decide (w = 2)) := by
  obtain ⟨c, e, hc⟩ := Res.test_ok (r := demoRun demoP demoOpsFree) (f := fun (c : Chain ℚ ℚ) => c.d.order == 3 && !c.d.worm.exist && c.d.hasGamma == 0 && c.d.fl.wDelta 1 &&
    c.d.co.r 0 != ⟨0, 0, 1⟩ && decide (c.d.W.live = Finset.range 3) && !c.d.fl.wDelta 2 && !c.d.fl.wMeas 2 && !c.d.fl.wGam 2) (by decide +kernel)
  have hp := demoRun_P demoP_wf demoP_start e
  simp only [Bool.and_eq_true, beq_iff_eq, bne_iff_ne, Bool.not_eq_true', decide_eq_true_eq] at hc
  obtain ⟨⟨⟨⟨⟨⟨⟨⟨h1, h2⟩, h3⟩, h4⟩, h5⟩, h6⟩, h7⟩, h8⟩, h9⟩ := hc
  refine ⟨c, demoRun_reach e, ?_, by omega, h2, ?_, ?_, ?_, h3, h4, h5, by rw [h6]; decide, h7, ?_⟩ <;> rw [hp]
  · exact ⟨by norm_num [demoP], by norm_num [demoP], by norm_num [demoP]⟩
  · exact ⟨fun _ _ _ _ _ => by rw [gAt, demo_gExpected]; exact one_ne_zero, fun _ _ _ _ _ => by rw [wAt, demo_wExpected]; exact one_ne_zero⟩
  · exact demoP_pos
  · exact ⟨fun _ _ _ => by rw [demo_gExpected]; exact one_ne_zero, fun _ _ _ => by rw [demo_wExpected]; exact one_ne_zero⟩
  · refine ⟨fun _ _ => by simp [SiteIn, demoP], fun _ _ => ⟨2147483648, by norm_num, by norm_num [demoP]⟩, fun _ _ => rfl, ?_, fun _ _ _ => rfl,
      fun _ _ _ => by rw [wAt, demo_wExpected]; exact one_ne_zero⟩
    intro w _ hw
    rw [decide_eq_true_eq] at hw
    subst hw
    exact ⟨h8, h9⟩

end Feyn
