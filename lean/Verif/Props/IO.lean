import Verif.Proof.Sites
import Verif.Props.Demo

/-!
# Saving and loading (C38)
-/

namespace Feyn

section
variable {Q F : Type} [Field Q] [LinearOrder Q] [IsStrictOrderedRing Q] [Field F]

omit [IsStrictOrderedRing Q] in
theorem Relabeled.dict {P : Params Q F} {d d' : Diag Q F} (h : Relabeled d d') (hi : Inv P d) :
    dictOf d' = dictOf d := by
  have hV := hi.count.verWf
  have hG := hi.count.gWf
  have hW := hi.count.wWf
  unfold dictOf
  have e1 : (List.range d'.Ver.avail).map (verRec d') = (List.range d.Ver.avail).map (verRec d) := by
    rw [h.ver]
    refine List.map_congr_left fun i q => ?_
    have q : i < d.Ver.avail := List.mem_range.1 q
    unfold verRec
    rw [h.ver, show (Bundle.ofSize d.Ver.avail).slot i = i from rfl, h.r i q, h.tau i q, h.spin i q]
  have e2 : (List.range d'.G.avail).map (gRec d') = (List.range d.G.avail).map (gRec d) := by
    rw [h.g]
    refine List.map_congr_left fun i q => ?_
    have q : i < d.G.avail := List.mem_range.1 q
    unfold gRec
    rw [h.ver, h.g, show (Bundle.ofSize d.G.avail).slot i = i from rfl, h.gV i q, h.gV i q, h.gK i q, h.gMeas i q, h.gGam i q]
    rfl
  have e3 : (List.range d'.W.avail).map (wRec d') = (List.range d.W.avail).map (wRec d) := by
    rw [h.w]
    refine List.map_congr_left fun i q => ?_
    have q : i < d.W.avail := List.mem_range.1 q
    unfold wRec
    rw [h.ver, h.w, show (Bundle.ofSize d.W.avail).slot i = i from rfl, h.wV i q, h.wV i q, h.wK i q, h.wMeas i q, h.wGam i q, h.wDelta i q]
    rfl
  rw [e1, e2, e3, h.exist, h.sfl]
  by_cases c : d.worm.exist = true
  · rw [if_pos c, if_pos c, h.ira c, h.masha c, h.dSpin c, h.wk c, h.ver]
    rfl
  · rw [if_neg c, if_neg c]

/-- **C38.** A reachable diagram of order at least one without composite line can be saved. Loading the dictionary
into the diagram object of a new process returns the same diagram, which is again consistent, and saving it again writes
the same dictionary. -/
theorem C38_save_load {P₀ : Params Q F} {c : Chain Q F} (hP : P₀.Wf) (hS : StartOk P₀) (h : Reach P₀ c)
    (hγ : c.d.hasGamma = 0) (ho : c.d.order ≠ 0) {d₀ : Diag Q F} (h0 : d₀.Fresh) :
    ∃ dict d', toDict c.d = .ok dict ∧ loadDiagram c.P dict d₀ = .ok d' ∧ SameDiagram c.d d' ∧ Inv c.P d' ∧
      toDict d' = .ok dict := by
  obtain ⟨-, hi⟩ := h.inv hP hS
  obtain ⟨d', e, hR⟩ := load_relabeled c.P hi hγ h0
  have hR' := hR.of_fixed hi hγ ho
  have hi' := hR'.inv hi hγ
  exact ⟨dictOf c.d, d', toDict_eq hi, e, hR'.same, hi', by rw [toDict_eq hi', hR'.dict hi]⟩

/-- **C38, order 0.** A state of the order-0 sector keeps the lines of an order-1 diagram. After saving and loading it
is a state of order 1: order, weight and phase are those of the order-1 diagram, the rest is the same. -/
theorem C38_order_zero_becomes_one {P₀ : Params Q F} {c : Chain Q F} (hP : P₀.Wf) (hS : StartOk P₀) (h : Reach P₀ c)
    (ho : c.d.order = 0) {d₀ : Diag Q F} (h0 : d₀.Fresh) :
    ∃ dict d', toDict c.d = .ok dict ∧ loadDiagram c.P dict d₀ = .ok d' ∧ d'.order = 1 ∧ Inv c.P d' ∧
      SameDiagram { c.d with
        order := 1
        weight := totalWeight c.d.G.live c.d.W.live c.d.wt c.d.sfl 1
        phase := c.P.ph (totalWeight c.d.G.live c.d.W.live c.d.wt c.d.sfl 1) } d' := by
  obtain ⟨-, hi⟩ := h.inv hP hS
  obtain ⟨h1, -, hγ⟩ : c.d.W.avail = 1 ∧ c.d.worm.exist = false ∧ c.d.hasGamma = 0 := by
    rcases hi.count.order with q | q
    · have := hi.count.n_pos; omega
    · exact q.2
  have hi1 : Inv c.P { c.d with
        order := 1
        weight := totalWeight c.d.G.live c.d.W.live c.d.wt c.d.sfl 1
        phase := c.P.ph (totalWeight c.d.G.live c.d.W.live c.d.wt c.d.sfl 1) } := {
    count := {
      verWf := hi.count.verWf
      gWf := hi.count.gWf
      wWf := hi.count.wWf
      n_pos := hi.count.n_pos
      n_le := hi.count.n_le
      ver := hi.count.ver
      g := hi.count.g
      order := Or.inl h1.symm }
    topo := hi.topo
    kcons := hi.kcons
    ghash := hi.ghash
    whash := hi.whash
    spin := hi.spin
    worm := hi.worm
    meas := hi.meas
    delta := hi.delta
    gamma := hi.gamma
    dom := hi.dom
    ext := hi.ext
    line := hi.line
    weight := by
      rw [if_neg (show ¬ (1 : ℕ) = 0 by decide), ← h1]
    phase := rfl
    sign := hi.sign }
  obtain ⟨d', e, hR⟩ := load_relabeled c.P hi1 hγ h0
  have hR' := hR.of_fixed hi1 hγ (show ¬ (1 : ℕ) = 0 by decide)
  exact ⟨_, d', toDict_eq hi, e, hR'.order, hR'.inv hi1 hγ, hR'.same⟩

end

/-- A run at order 3 with a worm, an instantaneous line and permuted cells to which C38 applies. -/
example : ∃ c, Reach demoP c ∧ (c.d.order == 3 && c.d.hasGamma == 0 && c.d.worm.exist) = true :=
  demo_reach demoOps _ (by decide +kernel)

/-- A state of the order-0 sector. -/
example : ∃ c, Reach demoP c ∧ (c.d.order == 0) = true :=
  demo_reach [goZero] _ (by decide +kernel)

/-- Save, load into new memory and continue with the given hops. -/
def demoRestart (c : Chain ℚ ℚ) (os : List Words) : Res (Chain ℚ ℚ) := do
  let dict ← toDict c.d
  let d' ← loadDiagram c.P dict demoRaw
  hop ⟨c.P, d', c.counter, fun _ _ => 0, fun _ _ => 0⟩ os

/-- A run at order 3 that is saved, loaded by a new process and continued: the updates work on the loaded diagram. -/
example : ((demoRun demoP demoOps >>= fun c => demoRestart c [mkWorm 0 77, rmWorm]).test
    fun c => c.d.order == 3 && c.d.worm.exist == false) = true := by decide +kernel

end Feyn
