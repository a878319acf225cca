import Verif.Proof.Return
import Verif.Props.Reverse

/-!
# C58: every state can be left and reached again
-/

namespace Feyn

set_option linter.unusedSectionVars false

section
variable {Q F : Type} [Field Q] [LinearOrder Q] [IsStrictOrderedRing Q] [Field F]
variable {P₀ : Params Q F} {a b c : Chain Q F}

/-- **C58, times.** A new diagram has only times that the generator can produce, and hops keep it so. -/
theorem C58_grid {d₀ d : Diag Q F} (hP : P₀.Wf) (hS : StartOk P₀) (h₀ : d₀.Fresh) (e : buildNew P₀ d₀ = .ok d) {a : Chain Q F}
    (h : Hops ⟨P₀, d, 0, fun _ _ => 0, fun _ _ => 0⟩ a) : OnGrid a.P a.d := by
  obtain ⟨d', e', hs⟩ := buildNew_started (P := P₀) h₀
  rw [e] at e'
  cases e'
  obtain ⟨h1, h2⟩ := (Reach.start d₀ d h₀ e).inv hP hS
  exact h.grid h1 h2 (started_grid hs)

theorem HopsD.reach (hr : Reach P₀ c) (h : HopsD c a) : Reach P₀ a := by
  induction h with
  | refl => exact hr
  | hop o _ e _ ih => exact .hop _ _ o ih e

/-- **C58, partial: every run can be undone.** From every state that hops lead to there are hops back to the state from
which the run started, up to the cells in which the components are stored.

Full statement: with `Hops c a` in place of `HopsD c a`. Missing: runs that remove an instantaneous line, or make it
continuous, while an instantaneous line has ends with different times. Such lines exist after a visit of the order-0 sector
(`C09_refuted`) and there the reverse update is not a possible update (`C16_refuted_unequal_times`); whether the old state can be
reached on another way depends on the weights. -/
theorem C58_return_partial (hP : P₀.Wf) (hS : StartOk P₀) (hr : Reach P₀ c) (hf : PosFactors c.P) (hs : SmallLattice c.P)
    (hg : OnGrid c.P c.d) (h : HopsD c a) : ∃ c', Hops a c' ∧ SameUpToCells c.d c'.d := by
  induction h with
  | refl => exact ⟨c, .refl c, .refl c.d⟩
  | hop o hv e hdt ih =>
    obtain ⟨c', v, s⟩ := ih
    have hrb := hv.reach hr
    obtain ⟨h1, h2⟩ := hv.hops.inv (hr.inv hP hS).1 (hr.inv hP hS).2
    have hPb := (hrb.inv hP hS).1
    obtain ⟨b', v', s'⟩ := hopOne_undo (h1 ▸ hs) hPb (h1 ▸ hf) h2 (hrb.spins hP hS).2 (hrb.siteG hP hS)
      (hv.hops.grid (hr.inv hP hS).1 (hr.inv hP hS).2 hg) e hdt
    obtain ⟨h3, h4⟩ := hopOne_inv hPb h2 e
    obtain ⟨h5, h6⟩ := v'.inv (h3 ▸ hPb) h4
    obtain ⟨c'', v'', s''⟩ := v.transfer (h1 ▸ hs) hPb h2 (h5.trans h3) h6 s'
    exact ⟨c'', v'.trans v'', s.trans s''⟩

/-- **C58, partial: no state is closed off.** If hops lead from one state to `a` and to `b`, then there are hops from `a` to `b`,
up to the cells in which the components are stored.

Full statement: with `Hops c a` in place of `HopsD c a`; see `C58_return_partial`. -/
theorem C58_mutual_partial (hP : P₀.Wf) (hS : StartOk P₀) (hr : Reach P₀ c) (hf : PosFactors c.P) (hs : SmallLattice c.P)
    (hg : OnGrid c.P c.d) (ha : HopsD c a) (hb : Hops c b) : ∃ b', Hops a b' ∧ SameUpToCells b.d b'.d := by
  obtain ⟨c', v, s⟩ := C58_return_partial hP hS hr hf hs hg ha
  obtain ⟨hPc, hic⟩ := hr.inv hP hS
  obtain ⟨h1, h2⟩ := ha.hops.inv hPc hic
  obtain ⟨h3, h4⟩ := v.inv (h1 ▸ hPc) h2
  obtain ⟨b', v', s'⟩ := hb.transfer hs hPc hic (h3.trans h1) h4 s
  exact ⟨b', v.trans v', s'⟩

/-- **C58, where a move is made.** In the same state in other cells the chain can do the same: for each hop from `c` there are hops
from `c'` to the same state. -/
theorem C58_transfer (hP : P₀.Wf) (hS : StartOk P₀) (hr : Reach P₀ c) (hs : SmallLattice c.P) {c' : Chain Q F}
    (hr' : Reach P₀ c') (hp : c'.P = c.P) (s : SameUpToCells c.d c'.d) (hb : Hops c b) : ∃ b', Hops c' b' ∧ SameUpToCells b.d b'.d :=
  hb.transfer hs (hr.inv hP hS).1 (hr.inv hP hS).2 hp (hr'.inv hP hS).2 s

end

/-! ### Concrete cases -/

theorem hopNZ_hopsD {os : List Words} {P₀ : Params ℚ ℚ} (hP : P₀.Wf) (hS : StartOk P₀) :
    ∀ {a c c' : Chain ℚ ℚ}, ReachD P₀ c → HopsD a c → hopNZ c os = .ok c' → HopsD a c' := by
  induction os with
  | nil => intro a c c' _ h e; cases e; exact h
  | cons o os ih =>
    intro a c c' hr h e
    simp only [hopNZ] at e
    by_cases c0 : c.d.order = 0
    · rw [if_pos c0] at e; cases e
    rw [if_neg c0] at e
    obtain ⟨c1, e1, e2⟩ := bind_eq_ok e
    exact ih (ReachD.hop c c1 o hr (fun q => absurd q c0) e1) (.hop o h e1 fun _ => hr.deltaTau hP hS) e2

/-- The hypotheses are met: from the new diagram hops lead to a diagram of order 3 with an instantaneous line, without it being removed,
and to a diagram of order 2 without one. -/
example : ∃ c a b : Chain ℚ ℚ, Reach demoP c ∧ PosFactors c.P ∧ SmallLattice c.P ∧ OnGrid c.P c.d ∧ HopsD c a ∧ Hops c b ∧
    a.d.order = 3 ∧ b.d.order = 2 := by
  obtain ⟨a, ea, ha⟩ := Res.test_ok (r := startChain demoP >>= fun c => hopNZ c [mkWorm 0 5, addInt 20 1, addDel 9 1])
    (f := fun c => c.d.order == 3) (by decide +kernel)
  obtain ⟨b, eb, hb⟩ := Res.test_ok (r := startChain demoP >>= fun c => hopNZ c [mkWorm 0 5, addInt 20 1])
    (f := fun c => c.d.order == 2) (by decide +kernel)
  obtain ⟨c, ec, ea⟩ := bind_eq_ok ea
  obtain ⟨c', ec', eb⟩ := bind_eq_ok eb
  rw [ec] at ec'
  cases ec'
  obtain ⟨d, ed, ec⟩ := bind_eq_ok ec
  cases ec
  have hr := ReachD.start demoRaw d demoRaw_fresh ed
  exact ⟨_, a, b, hr.reach, demoP_pos, ⟨by norm_num [demoP], by norm_num [demoP], by norm_num [demoP]⟩,
    C58_grid demoP_wf demoP_start demoRaw_fresh ed (.refl _),
    hopNZ_hopsD demoP_wf demoP_start hr (.refl _) ea, (hopNZ_hopsD demoP_wf demoP_start hr (.refl _) eb).hops,
    by simpa using ha, by simpa using hb⟩

end Feyn
