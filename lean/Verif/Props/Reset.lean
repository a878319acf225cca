import Verif.Proof.Reach
import Verif.Props.Demo

/-!
# Recomputing a diagram (C39)
-/

namespace Feyn

section
variable {Q F : Type} [Field Q] [LinearOrder Q] [IsStrictOrderedRing Q] [Field F]

/-- The interaction `w` ends at a vertex that the worm pointers name. -/
def TouchesWorm (d : Diag Q F) (w : ℕ) : Prop := ∃ e, d.sh.wV w e = d.worm.ira ∨ d.sh.wV w e = d.worm.masha

/-- **C39, partial.** Full statement: resetting a reachable diagram of order at least one without composite line, with
unchanged weight tables, changes nothing. Proved: this holds whenever a worm is present, and without a worm provided that
the pointers of the last worm name no vertex of the diagram. In every case the reset succeeds and keeps the containers, the
topology, momenta and hash tables, coordinates, measuring line, sign, order, propagators and all interactions that do not
end at a vertex named by the worm pointers. Missing: interactions at stale worm pointers, for which the claim is false
(`C39_reset_refuted`). -/
theorem C39_reset_partial {P₀ : Params Q F} {c : Chain Q F} (hP : P₀.Wf) (hS : StartOk P₀) (h : Reach P₀ c)
    (hγ : c.d.hasGamma = 0) (ho : c.d.order ≠ 0) :
    ∃ d', fixDiagram c.P c.d = .ok d' ∧
      (c.d.worm.exist = true → d' = c.d) ∧
      (NoStaleWorm c.d → d' = { c.d with worm := { c.d.worm with wt := 1 } }) ∧
      d' = { c.d with
        weight := d'.weight, phase := d'.phase, worm := { c.d.worm with wt := 1 },
        fl := { c.d.fl with wWorm := d'.fl.wWorm }, wt := { c.d.wt with wWt := d'.wt.wWt } } ∧
      ∀ w ∈ c.d.W.live, ¬ TouchesWorm c.d w → d'.fl.wWorm w = c.d.fl.wWorm w ∧ d'.wt.wWt w = c.d.wt.wWt w := by
  obtain ⟨hw, hi⟩ := h.inv hP hS
  have hg := hi.gGam_false hγ
  have hwg := hi.wGam_false hγ
  have e0 := fixDiagram_eq (P := c.P) hγ hi.count.gWf hi.count.wWf hi.topo hi.worm.ira_mem hi.worm.masha_mem
  refine ⟨fixed c.P c.d, e0, ?_, ?_, ?_, ?_⟩
  · intro q
    rw [fixed_self hi hγ ho (Or.inl q), ← hi.worm.wt q]
  · exact fun q => fixed_self hi hγ ho q
  · have n1 : ∀ g ∈ c.d.G.live, gNew c.P c.d g = c.d.wt.gWt g := fun g q => by
      rw [hi.line.g_eq g q, gExpected, hg g q]; rfl
    have e1 : (fun g => if g ∈ c.d.G.live then false else c.d.fl.gGam g) = c.d.fl.gGam := by
      funext g; split_ifs with k
      · exact (hg g k).symm
      · rfl
    have e3 : (fun w => if w ∈ c.d.W.live then false else c.d.fl.wGam w) = c.d.fl.wGam := by
      funext w; split_ifs with k
      · exact (hwg w k).symm
      · rfl
    have e4 : (fun g => if g ∈ c.d.G.live then gNew c.P c.d g else c.d.wt.gWt g) = c.d.wt.gWt := by
      funext g; split_ifs with k
      · exact n1 g k
      · rfl
    have e7 : c.d.W.avail = c.d.order := by
      rcases hi.count.order with q | q
      · exact q.symm
      · exact absurd q.1 ho
    unfold fixed
    dsimp only
    rw [e1, e3, e4, e7]
  · intro w q ht
    have f0 : wFlag c.d w = false := by
      by_contra k
      apply ht
      simp only [wFlag, Bool.not_eq_false, Bool.or_eq_true, beq_iff_eq] at k
      rcases k with ((k | k) | k) | k
      exacts [⟨IN, .inl k⟩, ⟨IN, .inr k⟩, ⟨OUT, .inl k⟩, ⟨OUT, .inr k⟩]
    have f1 : c.d.fl.wWorm w = false := by
      by_contra k
      exact ht ((hi.worm.flag w q).1 (by simpa using k)).2
    constructor
    · change (if w ∈ c.d.W.live then wFlag c.d w else c.d.fl.wWorm w) = _
      rw [if_pos q, f0, f1]
    · change (if w ∈ c.d.W.live then wNew c.P c.d w else c.d.wt.wWt w) = _
      rw [if_pos q, hi.line.w_eq w q, wExpected, hwg w q, f1, wNew, f0]

end

/-- Weight tables that prefer spin up at the first end of an interaction. -/
def spinP : Params ℚ ℚ := { demoP with wSmoothT := fun a _ _ _ _ _ => if a IN = UP then 2 else 1 }

theorem spinP_wf : spinP.Wf := by constructor <;> simp [spinP, demoP, normWeight]
theorem spinP_start : StartOk spinP := by constructor <;> simp [spinP, demoP, SiteIn, startSite, spinUpUp]

/-- **C39 is violated.** `FixDiagram` decides whether an interaction carries the worm by comparing its ends with the worm
pointers without asking whether there is a worm. After a worm was created and removed, and the spins changed on the way
through the order-0 sector, a reset with unchanged tables marks the interaction as worm line and doubles the weight. -/
theorem C39_reset_refuted : ∃ (P₀ : Params ℚ ℚ) (c : Chain ℚ ℚ) (d' : Diag ℚ ℚ), P₀.Wf ∧ StartOk P₀ ∧ Reach P₀ c ∧
    c.d.hasGamma = 0 ∧ c.d.order = 1 ∧ c.d.worm.exist = false ∧ fixDiagram c.P c.d = .ok d' ∧
    d'.worm.exist = false ∧ d'.weight = 2 * c.d.weight ∧ d'.weight ≠ c.d.weight ∧
    ∃ w ∈ d'.W.live, d'.fl.wWorm w = true ∧ c.d.fl.wWorm w = false := by
  obtain ⟨c, hr, hf⟩ := demo_reach (P := spinP) [mkWorm 0 5, rmWorm, goZero, goOne]
    (fun (c : Chain ℚ ℚ) => c.d.hasGamma == 0 && c.d.order == 1 && !c.d.worm.exist && (fixDiagram c.P c.d).test fun (d' : Diag ℚ ℚ) =>
      !d'.worm.exist && d'.weight == 2 * c.d.weight && d'.weight != c.d.weight && decide (0 ∈ d'.W.live) &&
        d'.fl.wWorm 0 && !c.d.fl.wWorm 0) (by decide +kernel)
  simp only [Bool.and_eq_true, beq_iff_eq, Bool.not_eq_true'] at hf
  obtain ⟨⟨⟨h1, h2⟩, h3⟩, h4⟩ := hf
  obtain ⟨d', e, h5⟩ := Res.test_ok h4
  simp only [Bool.and_eq_true, beq_iff_eq, Bool.not_eq_true', bne_iff_ne, decide_eq_true_eq] at h5
  obtain ⟨⟨⟨⟨⟨h6, h7⟩, h8⟩, h9⟩, h10⟩, h11⟩ := h5
  exact ⟨spinP, c, d', spinP_wf, spinP_start, hr, h1, h2, h3, e, h6, h7, h8, 0, h9, h10, h11⟩

/-- The hypotheses of `C39_reset_partial` hold in a run with a worm at order 3. -/
example : ∃ c, Reach demoP c ∧ (c.d.hasGamma == 0 && c.d.order == 3 && c.d.worm.exist) = true :=
  demo_reach demoOps _ (by decide +kernel)

end Feyn
