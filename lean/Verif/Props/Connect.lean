import Mathlib.Data.Rat.Floor
import Verif.Proof.Connect
import Verif.Props.Demo

/-!
# Connectedness (C56) and absence of self-energy insertions (C57)

The weights of the lines are the fully dressed propagator and interaction. The sum over diagrams is then correct
only if diagrams are connected and none contains a part that is already included in the dressed lines, which is the
case if it stays in one piece when two lines are cut. The program never looks for such parts: it relies on
momenta of lines being different.
-/

namespace Feyn

section
variable {Q F : Type} [Field Q] [LinearOrder Q] [IsStrictOrderedRing Q] [Field F]
variable {P₀ : Params Q F} {c : Chain Q F}

/-- C56. In every diagram reached by the program, with or without a worm, all vertices are connected by paths of
lines. -/
theorem C56_connected (hP : P₀.Wf) (hS : StartOk P₀) (h : Reach P₀ c) : ConnectedBut c.d ∅ ∅ :=
  (h.whole hP hS).connected (h.inv hP hS).2 (h.spins hP hS).1

/-- C56, one step: any operation with any random numbers, applied to a reachable diagram, leaves it in one piece. -/
theorem C56_step (hP : P₀.Wf) (hS : StartOk P₀) (h : Reach P₀ c) (op : Op) (o : Words) :
    ∃ out, runOp c.P op o c.d = .ok out ∧ ConnectedBut out.d ∅ ∅ := by
  obtain ⟨h1, h2⟩ := h.inv hP hS
  obtain ⟨out, eo, hi, -⟩ := runOp_good h1 h2 op o
  have he := runOp_effect c.P op o c.d out eo
  have hs := (h.spins hP hS).1
  have hW := h.whole hP hS
  refine ⟨out, eo, ?_⟩
  by_cases ht : out.tag = .accept
  · exact (runOp_whole h1 h2 hW op o out eo ht).connected hi ((runOp_kept h1 h2 op o out eo ht).2.1 hs)
  · exact ((he.1 ht).ends.whole hW).connected hi ((he.1 ht).spinW.1.keep hs)

/-- C57. A diagram without a worm stays in one piece when two propagators, two interaction lines, or one line of each
kind are cut. It contains no self-energy insertion, no polarisation insertion and no tadpole. -/
theorem C57_skeleton (hP : P₀.Wf) (hS : StartOk P₀) (h : Reach P₀ c) (he : c.d.worm.exist = false) :
    (∀ g ∈ c.d.G.live, ∀ g' ∈ c.d.G.live, ConnectedBut c.d {g, g'} ∅) ∧
    (∀ w ∈ c.d.W.live, ∀ w' ∈ c.d.W.live, ConnectedBut c.d ∅ {w, w'}) ∧
    (∀ g ∈ c.d.G.live, ∀ w ∈ c.d.W.live, ConnectedBut c.d {g} {w}) := by
  have hi := (h.inv hP hS).2
  have hW := h.whole hP hS
  exact ⟨fun g hg g' hg' => hW.cut he fun S => cut_gg hi he hg hg',
    fun w hw w' hw' => hW.cut he fun S => cut_ww hi he hw hw',
    fun g hg w hw => hW.cut he fun S => cut_gw hi he hg hw⟩

/-- C57. Without a worm no propagator returns to the vertex it comes from. -/
theorem C57_no_tadpole (hP : P₀.Wf) (hS : StartOk P₀) (h : Reach P₀ c) (he : c.d.worm.exist = false) :
    ∀ g ∈ c.d.G.live, c.d.sh.gV g IN ≠ c.d.sh.gV g OUT := by
  intro g hg q
  have hi := (h.inv hP hS).2
  have hv := hi.topo.gV_mem g hg IN
  have b1 : c.d.sh.vG (c.d.sh.gV g IN) OUT = g := hi.topo.vG_gV g hg IN
  have b2 : c.d.sh.vG (c.d.sh.gV g IN) IN = g := by
    have := hi.topo.vG_gV g hg OUT
    rwa [← q] at this
  have hw := hi.topo.vW_mem _ hv
  have n := hi.whash.ne _ hw
  obtain ⟨m1, m2⟩ := hi.whash.mem _ hw
  have k := hi.kcons _ hv
  unfold KConserved at k
  rw [b1, b2] at k
  simp only [he, Bool.false_eq_true, false_and, if_false] at k
  have : sgn (c.d.sh.vDir (c.d.sh.gV g IN)) = 1 ∨ sgn (c.d.sh.vDir (c.d.sh.gV g IN)) = -1 := by
    cases c.d.sh.vDir (c.d.sh.gV g IN) <;> decide
  rcases this with e | e <;> rw [e] at k <;> omega

end

/-! ### Cases -/

/-- C56 and C57 applied to a worm-free diagram of order 3. -/
example : ∃ c, Reach demoP c ∧ c.d.order = 3 ∧ ConnectedBut c.d {0, 1} ∅ ∧ ConnectedBut c.d {0} {1} ∧ ConnectedBut c.d ∅ {0, 2} := by
  obtain ⟨c, h, e⟩ := demo_reach (P := demoP) demoOpsFree
    (fun c => c.d.order == 3 && !c.d.worm.exist && decide (c.d.G.live = Finset.range 6) && decide (c.d.W.live = Finset.range 3))
    (by decide +kernel)
  simp only [Bool.and_eq_true, beq_iff_eq, Bool.not_eq_true', decide_eq_true_eq] at e
  obtain ⟨⟨⟨e1, e2⟩, e3⟩, e4⟩ := e
  obtain ⟨h1, h2, h3⟩ := C57_skeleton demoP_wf demoP_start h e2
  rw [e3, e4] at h3
  rw [e3] at h1
  rw [e4] at h2
  exact ⟨c, h, e1, h1 0 (by decide) 1 (by decide), h3 0 (by decide) 1 (by decide), h2 0 (by decide) 2 (by decide)⟩

/-- With a worm tadpoles do occur, so that the hypothesis of C57 is needed. C56 applies to this diagram. -/
theorem C57_worm_tadpole : ∃ c, Reach demoP c ∧ c.d.worm.exist = true ∧ 0 ∈ c.d.G.live ∧ c.d.sh.gV 0 IN = c.d.sh.gV 0 OUT ∧
    ConnectedBut c.d ∅ ∅ := by
  obtain ⟨c, h, e⟩ := demo_reach (P := demoP) [mkWorm 0 5, hopWords 19 4 [0, zeroWord]]
    (fun c => c.d.worm.exist && decide (0 ∈ c.d.G.live) && c.d.sh.gV 0 IN == c.d.sh.gV 0 OUT) (by decide +kernel)
  simp only [Bool.and_eq_true, beq_iff_eq, decide_eq_true_eq] at e
  exact ⟨c, h, e.1.1, e.1.2, e.2, C56_connected demoP_wf demoP_start h⟩

end Feyn
