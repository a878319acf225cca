import Verif.Proof.RevWorm
import Verif.Proof.RevMove
import Verif.Proof.RevTau
import Verif.Proof.RevOrder0
import Verif.Proof.RevLoop
import Verif.Proof.RevAdd

/-! Detailed balance of all moves; every update call is a move. -/

namespace Feyn

set_option linter.unusedSectionVars false

section
variable {Q F : Type} [Field Q] [LinearOrder Q] [IsStrictOrderedRing Q] [Field F]
variable {P : Params Q F} {d : Diag Q F}

/-- The times drawn by a move. -/
def Move.Times (g : Q → Prop) : Move Q → Prop
  | .add _ _ _ _ tA tB => g tA ∧ g tB
  | .changeTau _ t => g t
  | .delta2cont _ t => g t
  | .backToOrder1 _ t1 t2 _ _ => g t1 ∧ g t2
  | .toGGGammaG _ t => g t
  | .toWWGammaW _ t _ => g t
  | _ => True

/-- The call `runOp P op o d` is the call of a move. -/
def IsMove (P : Params Q F) (d : Diag Q F) (op : Op) (r : Res (Out Q F)) : Prop :=
  ∃ (m : Move Q) (w : Word), m.op = op ∧ m.Valid P d ∧ m.Times (fun t => ∃ w, t = pickTau P w) ∧ r = m.run P d (urn Q w)

theorem IsMove.mk {op : Op} {r : Res (Out Q F)} (m : Move Q) (w : Word) (h : m.op = op) (hv : m.Valid P d)
    (e : r = m.run P d (urn Q w)) (ht : m.Times (fun t => ∃ w, t = pickTau P w) := by
      first | trivial | exact ⟨_, rfl⟩ | exact ⟨⟨_, rfl⟩, _, rfl⟩) : IsMove P d op r :=
  ⟨m, w, h, hv, ht, e⟩

theorem runOp_isMove (hP : P.Wf) (h : Inv P d) {op : Op} (hi : op.idx < numOps P) (h1 : op ≠ .changeRVertex)
    (h2 : op ≠ .changeSpin) (o : Words) : IsMove P d op (runOp P op o d) := by
  cases op
  case createWorm =>
    obtain ⟨w, e1, hw⟩ := h.pickW (o 0)
    obtain ⟨k, e2, hk⟩ := pickK_spec (o 1)
    obtain ⟨s, e3, hs⟩ := pickDSpin_spec (o 2)
    exact .mk (.createWorm w k s) (o 3) rfl ⟨hi, hw, hk, hs⟩ (by
      simp only [runOp, createWorm, e1, e2, e3, Res.ok_bind, Move.run])
  case deleteWorm => exact .mk .deleteWorm (o 0) rfl ⟨hi, trivial⟩ rfl
  case moveWormG =>
    obtain ⟨e, e1⟩ := pickDir_spec (o 0)
    exact .mk (.moveWormG e) (o 1) rfl ⟨hi, trivial⟩ (by simp only [runOp, moveWormG, e1, Res.ok_bind, Move.run])
  case moveWormW => exact .mk .moveWormW (o 0) rfl ⟨hi, trivial⟩ rfl
  case reconnect =>
    obtain ⟨e, e1⟩ := pickDir_spec (o 0)
    exact .mk (.reconnect e) (o 1) rfl ⟨hi, trivial⟩ (by simp only [runOp, reconnect, e1, Res.ok_bind, Move.run])
  case addInteraction =>
    obtain ⟨k, e1, hk⟩ := pickK_spec (o 0)
    obtain ⟨e, e2⟩ := pickDir_spec (o 1)
    obtain ⟨f, e3⟩ := pickDir_spec (o 2)
    exact .mk (.add false k e f (pickTau P (o 3)) (pickTau P (o 4))) (o 5) rfl
      ⟨hi, hk, pickTau_in hP _, pickTau_in hP _, by simp⟩ (by
        simp only [runOp, addInteraction, e1, e2, e3, Res.ok_bind, Move.run])
  case delInteraction =>
    obtain ⟨e, e1⟩ := pickDir_spec (o 0)
    exact .mk (.del false e) (o 1) rfl ⟨hi, trivial⟩ (by simp only [runOp, delInteraction, e1, Res.ok_bind, Move.run])
  case addDelta =>
    obtain ⟨k, e1, hk⟩ := pickK_spec (o 0)
    obtain ⟨e, e2⟩ := pickDir_spec (o 1)
    obtain ⟨f, e3⟩ := pickDir_spec (o 2)
    exact .mk (.add true k e f (pickTau P (o 3)) (pickTau P (o 3))) (o 4) rfl
      ⟨hi, hk, pickTau_in hP _, pickTau_in hP _, fun _ => rfl⟩ (by
        simp only [runOp, addDelta, e1, e2, e3, Res.ok_bind, Move.run])
  case delDelta =>
    obtain ⟨e, e1⟩ := pickDir_spec (o 0)
    exact .mk (.del true e) (o 1) rfl ⟨hi, trivial⟩ (by simp only [runOp, delDelta, e1, Res.ok_bind, Move.run])
  case changeTau =>
    obtain ⟨v, e1, hv⟩ := h.pickVer (o 0)
    exact .mk (.changeTau v (pickTau P (o 1))) (o 2) rfl ⟨hi, hv, pickTau_in hP _⟩ (by
      simp only [runOp, changeTau, e1, Res.ok_bind, Move.run])
  case changeRVertex => exact absurd rfl h1
  case changeRLoop =>
    obtain ⟨v, e1, hv⟩ := h.pickVer (o 0)
    obtain ⟨r, e2, hr⟩ := pickSite_spec hP (o 1) (o 2) (o 3)
    exact .mk (.changeRLoop v r) (o 4) rfl ⟨hi, hv, hr⟩ (by
      simp only [runOp, changeRLoop, e1, e2, Res.ok_bind, Move.run]
      rfl)
  case g2w =>
    obtain ⟨w, e1, hw⟩ := h.pickW (o 0)
    exact .mk (.g2w w) (o 1) rfl ⟨hi, hw⟩ (by simp only [runOp, g2w, e1, Res.ok_bind, Move.run])
  case w2g =>
    obtain ⟨w, e1, hw⟩ := h.pickG (o 0)
    exact .mk (.w2g w) (o 1) rfl ⟨hi, hw⟩ (by simp only [runOp, w2g, e1, Res.ok_bind, Move.run])
  case delta2cont =>
    obtain ⟨w, e1, hw⟩ := h.pickW (o 0)
    exact .mk (.delta2cont w (pickTau P (o 1))) (o 2) rfl ⟨hi, hw, pickTau_in hP _⟩ (by
      simp only [runOp, delta2cont, e1, Res.ok_bind, Move.run])
  case cont2delta =>
    obtain ⟨w, e1, hw⟩ := h.pickW (o 0)
    exact .mk (.cont2delta w) (o 1) rfl ⟨hi, hw⟩ (by simp only [runOp, cont2delta, e1, Res.ok_bind, Move.run])
  case changeSpin => exact absurd rfl h2
  case toOrder0 => exact .mk .toOrder0 (o 0) rfl ⟨hi, trivial⟩ rfl
  case backToOrder1 =>
    obtain ⟨r, e1, hr⟩ := pickSite_spec hP (o 0) (o 1) (o 2)
    obtain ⟨s1, e2⟩ := pickSpin_spec (o 5)
    obtain ⟨s2, e3⟩ := pickSpin_spec (o 6)
    exact .mk (.backToOrder1 r (pickTau P (o 3)) (pickTau P (o 4)) s1 s2) (o 7) rfl
      ⟨hi, hr, pickTau_in hP _, pickTau_in hP _⟩ (by
        simp only [runOp, backToOrder1, e1, e2, e3, Res.ok_bind, Move.run])
  case toGGGammaG =>
    obtain ⟨w, e1, hw⟩ := h.pickG (o 0)
    exact .mk (.toGGGammaG w (pickTau P (o 1))) (o 2) rfl ⟨hi, hw, pickTau_in hP _⟩ (by
      simp only [runOp, toGGGammaG, e1, Res.ok_bind, Move.run])
  case fromGGGammaG => exact .mk .fromGGGammaG (o 0) rfl ⟨hi, trivial⟩ rfl
  case toWWGammaW =>
    obtain ⟨w, e1, hw⟩ := h.pickW (o 0)
    obtain ⟨r, e2, hr⟩ := pickSite_spec hP (o 2) (o 3) (o 4)
    exact .mk (.toWWGammaW w (pickTau P (o 1)) r) (o 5) rfl ⟨hi, hw, pickTau_in hP _, hr⟩ (by
      simp only [runOp, toWWGammaW, e1, e2, Res.ok_bind, Move.run])
  case fromWWGammaW => exact .mk .fromWWGammaW (o 0) rfl ⟨hi, trivial⟩ rfl

theorem Move.bal (hP : P.Wf) (hf : PosFactors P) (h : Inv P d) (hws : WormSpinOk d) (hsg : SiteGOk d) {m : Move Q}
    (hdt : m.op = .delDelta ∨ m.op = .delta2cont → DeltaTau d) (hm : m.Valid P d) {u : Q} (hu : 0 ≤ u) {out : Out Q F}
    (e : m.run P d u = .ok out) (ha : out.tag = .accept) : Bal P d m out.d out.prob := by
  have h' : Inv P out.d := by
    obtain ⟨o', e', hi, -⟩ := Move.good hP h hm hu
    rw [e] at e'; cases e'; exact hi
  cases m
  case createWorm => exact createWorm_bal hP hf h h' hm hu e ha rfl rfl
  case deleteWorm => exact deleteWorm_bal hP hf h hws h' hu e ha rfl rfl
  case moveWormG => exact moveWormG_bal hP h h' hu e ha rfl rfl
  case moveWormW => exact moveWormW_bal hP h h' hu e ha rfl rfl
  case reconnect => exact reconnect_bal hP h h' hu e ha rfl rfl
  case add => exact add_bal hP hf h h' hm hu e ha rfl rfl
  case del δ dir => exact del_bal hP hf h h' (fun q => hdt (Or.inl (by simp [Move.op, q]))) hu e ha rfl rfl
  case changeTau => exact changeTau_bal hP h h' hm hu e ha rfl rfl
  case changeRLoop => exact changeRLoop_bal hP h h' hm hu e ha rfl rfl
  case g2w => exact g2w_bal hP hf h h' hm hu e ha rfl rfl
  case w2g => exact w2g_bal hP hf h h' hm hu e ha rfl rfl
  case delta2cont => exact delta2cont_bal hP h h' (hdt (Or.inr rfl)) hm hu e ha rfl rfl
  case cont2delta => exact cont2delta_bal hP h h' hm hu e ha rfl rfl
  case toOrder0 => exact toOrder0_bal hP hf h h' hu e ha rfl rfl
  case backToOrder1 => exact back_bal hP hf h h' hu e ha rfl rfl
  case toGGGammaG => exact toGG_bal hP hf h h' hsg hm hu e ha rfl rfl
  case fromGGGammaG => exact fromGG_bal hP hf h h' hm hu e ha rfl rfl
  case toWWGammaW => exact toWW_bal hP hf h h' hm hu e ha rfl rfl
  case fromWWGammaW => exact fromWW_bal hP hf h h' hm hu e ha rfl rfl

theorem target_pos (hP : P.Wf) (hf : PosFactors P) (h : Inv P d) : 0 < target P d := by
  have hw := h.weight_ne hP
  have h1 : 0 < P.mod d.weight := P.mod.pos hw
  have h2 : 0 < P.orderRW.getD d.order 0 := hf.order_pos hP (by
    have := h.count.n_le
    have := h.count.n_pos
    rcases h.count.order with q | q <;> omega)
  have h3 : (0 : Q) < 1 / ((MOD_K : ℤ) : Q) := by norm_num
  unfold target
  have h4 : (0 : Q) < (1 / (2 * ((MOD_K : ℤ) : Q))) ^ d.W.avail := by positivity
  apply mul_pos
  apply mul_pos
  apply mul_pos (mul_pos (mul_pos h1 h2) h4)
  · split_ifs with c
    · rw [h.worm.wt c]
      exact mul_pos (mul_pos hf.worm one_pos) h3
    · exact one_pos
  · split_ifs
    · exact one_pos
    · exact hf.polar
  · split_ifs
    · exact one_pos
    · exact hf.gammaG
    · exact hf.gammaW

/-- Every move has a positive density. -/
theorem density_pos (hP : P.Wf) (h : Inv P d) (m : Move Q) : 0 < m.density P d := by
  have hb := hP.beta_pos
  have h0 := numOps_cast_pos P
  have h1 : (0 : Q) < ((MOD_K : ℤ) : Q) := by norm_num
  have hn := h.count.n_pos
  have hW : (0 : Q) < (d.W.avail : Q) := by exact_mod_cast hn
  have hG : (0 : Q) < (d.G.avail : Q) := by have := h.count.g; exact_mod_cast (by omega : 0 < d.G.avail)
  have hV : (0 : Q) < (d.Ver.avail : Q) := by have := h.count.ver; exact_mod_cast (by omega : 0 < d.Ver.avail)
  have hL : (0 : Q) < ((P.lx * P.ly * P.nsub : ℕ) : Q) := by
    exact_mod_cast Nat.mul_pos (Nat.mul_pos hP.lx_pos hP.ly_pos) hP.nsub_pos
  cases m <;> simp only [Move.density] <;> positivity

end
end Feyn
