import Verif.Proof.Start
import Verif.Proof.RoundTrip

/-! All reachable states are consistent and every hop returns. -/

namespace Feyn

set_option linter.unusedSectionVars false
set_option linter.unusedSimpArgs false

section
variable {Q F : Type} [Field Q] [LinearOrder Q] [IsStrictOrderedRing Q] [Field F]

theorem SameModel.wf {P P' : Params Q F} (h : SameModel P P') (hP : P.Wf) : P'.Wf := by
  obtain ⟨a, b, c, e, f, hl, rfl⟩ := h
  exact ⟨hP.beta_pos, hP.one_le, hP.lt_max, by have := hP.rw_len; simp only; omega, hP.lx_pos, hP.ly_pos, hP.nsub_pos, hP.norm_ne⟩

theorem SameModel.inv {P P' : Params Q F} (h : SameModel P P') {d : Diag Q F} (hd : Inv P d) : Inv P' d := by
  obtain ⟨a, b, c, e, f, hl, rfl⟩ := h
  exact {
    count := ⟨hd.count.verWf, hd.count.gWf, hd.count.wWf, hd.count.n_pos, hd.count.n_le, hd.count.ver, hd.count.g,
      hd.count.order⟩
    topo := hd.topo
    kcons := hd.kcons
    ghash := hd.ghash
    whash := hd.whash
    spin := hd.spin
    worm := hd.worm
    meas := hd.meas
    delta := hd.delta
    gamma := hd.gamma
    dom := hd.dom
    ext := hd.ext
    line := ⟨hd.line.g_eq, hd.line.w_eq, hd.line.g_ne, hd.line.w_ne⟩
    weight := hd.weight
    phase := hd.phase
    sign := hd.sign }

theorem hopOne_ok {c : Chain Q F} (hP : c.P.Wf) (h : Inv c.P c.d) (o : Words) :
    ∃ c', hopOne c o = .ok c' ∧ c'.P = c.P ∧ Inv c.P c'.d := by
  unfold hopOne
  cases selectOp c.P (urn Q (o 0)) with
  | none => exact ⟨_, rfl, rfl, h⟩
  | some op =>
    obtain ⟨out, e, hi, -⟩ := runOp_good hP h op (fun i => o (i + 1))
    simp only [e, Res.ok_bind]
    exact ⟨_, rfl, rfl, hi⟩

theorem hopOne_inv {c c' : Chain Q F} (hP : c.P.Wf) (h : Inv c.P c.d) {o : Words} (e : hopOne c o = .ok c') :
    c'.P = c.P ∧ Inv c'.P c'.d := by
  obtain ⟨c'', e', hp, hi⟩ := hopOne_ok hP h o
  rw [e] at e'
  cases e'
  rw [hp]
  exact ⟨rfl, hi⟩

theorem fixDiagram_ok_gamma {P : Params Q F} {d d' : Diag Q F} (e : fixDiagram P d = .ok d') : d.hasGamma = 0 := by
  by_contra c
  simp [fixDiagram, c] at e

theorem Inv.fix_eq {P P' : Params Q F} {d : Diag Q F} (h : Inv P d) (hγ : d.hasGamma = 0) :
    fixDiagram P' d = .ok (fixed P' d) :=
  fixDiagram_eq hγ h.count.gWf h.count.wWf h.topo h.worm.ira_mem h.worm.masha_mem

theorem Reach.inv {P₀ : Params Q F} (hP : P₀.Wf) (hS : StartOk P₀) {c : Chain Q F} (h : Reach P₀ c) :
    c.P.Wf ∧ Inv c.P c.d := by
  induction h with
  | start d₀ d hf e =>
    obtain ⟨d', e', hi, -⟩ := buildNew_inv hP hS hf
    rw [e] at e'; cases e'
    exact ⟨hP, hi⟩
  | hop c c' o _ e ih =>
    obtain ⟨h1, h2⟩ := hopOne_inv ih.1 ih.2 e
    exact ⟨h1 ▸ ih.1, h2⟩
  | reweight c P' _ hm ih => exact ⟨hm.wf ih.1, hm.inv ih.2⟩
  | anneal c P' d' _ ha hs e hn ih =>
    have hγ := fixDiagram_ok_gamma e
    rw [ih.2.fix_eq hγ] at e
    cases e
    exact ⟨ha.wf, fixed_inv ih.2 ha hγ hs hn⟩
  | restart c P' dict d₀ d' n _ ha hγ es h0 el hn ih => exact ⟨ha.wf, (restart_spec ih.2 ha hγ h0 es el hn).2.2⟩

end
end Feyn
