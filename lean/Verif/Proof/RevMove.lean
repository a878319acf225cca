import Verif.Proof.RevWorm

/-!
# Detailed balance: moving a worm along a fermion line, reconnecting fermion lines
-/

set_option linter.unusedSectionVars false
set_option linter.unusedSimpArgs false

namespace Feyn

section
variable {Q F : Type} [Field Q] [LinearOrder Q] [IsStrictOrderedRing Q] [Field F]
variable {P : Params Q F} {d d' d'' : Diag Q F}

/-! ### Moving `ira` along a fermion line -/

/-- The vertex to which `ira` moves. -/
abbrev mgV (d : Diag Q F) (dir : Dir) : ℕ := d.sh.gV (d.sh.vG d.worm.ira dir) dir

/-- Spins after the move. -/
def mgSpin (d : Diag Q F) (dir : Dir) : ℕ → Dir → Spin :=
  upd (upd d.co.spin d.worm.ira fun e => if e = dir then !d.co.spin d.worm.ira e else d.co.spin d.worm.ira e)
    (mgV d dir) fun e => if e = !dir then !d.co.spin (mgV d dir) e else d.co.spin (mgV d dir) e

/-- Worm flag of the line left behind. -/
def mgFlag (d : Diag Q F) (dir : Dir) : Bool :=
  if d.sh.wV (d.sh.vW d.worm.ira) (!d.sh.vDir d.worm.ira) = mgV d dir then true
  else d.worm.isWorm (d.sh.wV (d.sh.vW d.worm.ira) (!d.sh.vDir d.worm.ira))

/-- Vertex data after the move. -/
def mgCo (d : Diag Q F) (dir : Dir) : Coord Q := { d.co with spin := mgSpin d dir }

/-- Flags after the move. -/
def mgFl (d : Diag Q F) (dir : Dir) : Flags :=
  { d.fl with wWorm := upd (upd d.fl.wWorm (d.sh.vW d.worm.ira) (mgFlag d dir)) (d.sh.vW (mgV d dir)) true }

/-- Momentum after the move. -/
abbrev mgK (d : Diag Q F) (dir : Dir) : ℤ := subK (d.mo.gK (d.sh.vG d.worm.ira dir)) (mulK (sgn dir) d.worm.k)

/-- Ratio of weights of the move. -/
def mgRatio (P : Params Q F) (d : Diag Q F) (dir : Dir) : F :=
  wExpected P d.sh (mgCo d dir) (mgFl d dir) d.ext (d.sh.vW d.worm.ira) *
  wExpected P d.sh (mgCo d dir) (mgFl d dir) d.ext (d.sh.vW (mgV d dir)) *
  gExpected P d.sh (mgCo d dir) (mgFl d dir) d.ext (d.sh.vG d.worm.ira dir) /
  (d.wt.gWt (d.sh.vG d.worm.ira dir) * d.wt.wWt (d.sh.vW d.worm.ira) * d.wt.wWt (d.sh.vW (mgV d dir)))

/-- Diagram after `MoveWormOnG`. -/
def movedG (P : Params Q F) (d : Diag Q F) (dir : Dir) (gh : ℤ → Bool) : Diag Q F :=
  { d with
    phase := d.phase * P.ph (mgRatio P d dir)
    weight := d.weight * mgRatio P d dir
    worm := { d.worm with ira := mgV d dir, wt := 1 }
    co := mgCo d dir
    mo := { d.mo with gHash := gh, gK := upd d.mo.gK (d.sh.vG d.worm.ira dir) (mgK d dir) }
    fl := mgFl d dir
    wt := {
      gWt := upd d.wt.gWt (d.sh.vG d.worm.ira dir)
        (gExpected P d.sh (mgCo d dir) (mgFl d dir) d.ext (d.sh.vG d.worm.ira dir))
      wWt := upd (upd d.wt.wWt (d.sh.vW d.worm.ira)
        (wExpected P d.sh (mgCo d dir) (mgFl d dir) d.ext (d.sh.vW d.worm.ira))) (d.sh.vW (mgV d dir))
        (wExpected P d.sh (mgCo d dir) (mgFl d dir) d.ext (d.sh.vW (mgV d dir))) } }

/-- When `MoveWormOnG` makes a proposal. -/
def MoveGOk (d : Diag Q F) (dir : Dir) : Prop :=
  (d.order ≠ 0 ∧ d.worm.exist = true) ∧
  ¬ (mgV d dir = d.worm.ira ∨ mgV d dir = d.worm.masha ∨ canNotMoveG d.worm.dSpin
      (d.co.spin (d.sh.gV (d.sh.vG d.worm.ira dir) IN) OUT) dir = true) ∧
  d.mo.gHash (mgK d dir) = false

theorem moveWormG_skip (h : Inv P d) {dir : Dir} (hc : ¬ MoveGOk d dir) (u : Q) :
    (Move.moveWormG dir : Move Q).run P d u = skip d := by
  simp only [Move.run]
  by_cases c : d.order = 0 ∨ d.worm.exist = false
  · rw [if_pos c]
  rw [if_neg c]
  simp only [not_or, Bool.not_eq_false] at c
  have hI := h.worm.ira_mem c.2
  have hg := h.topo.vG_mem _ hI dir
  have hvI := h.topo.gV_mem _ hg IN
  unfold moveWormGCore
  simp only [deref_live hI, deref_live hg, deref_live hvI, Res.ok_bind]
  by_cases c0 : mgV d dir = d.worm.ira ∨ mgV d dir = d.worm.masha ∨ canNotMoveG d.worm.dSpin
      (d.co.spin (d.sh.gV (d.sh.vG d.worm.ira dir) IN) OUT) dir = true
  · rw [if_pos c0]
  rw [if_neg c0]
  have hkW : InK (mgK d dir) := subK_in (h.ghash.mem _ hg) (mulK_sgn_in _ (h.worm.k_in c.2))
  rw [gHashCheck_ok _ hkW, Res.ok_bind, if_pos]
  by_contra c1
  exact hc ⟨c, c0, by simpa [mgK] using c1⟩

theorem moveWormG_run (h : Inv P d) {dir : Dir} (hc : MoveGOk d dir) : ∃ gh, ∀ u,
    (Move.moveWormG dir : Move Q).run P d u =
      metropolis d d (P.mod (mgRatio P d dir) * (1 / d.worm.wt)) u (.ok (movedG P d dir gh)) := by
  obtain ⟨c, c0, c1⟩ := hc
  have hI := h.worm.ira_mem c.2
  have hM := h.worm.masha_mem c.2
  have hg := h.topo.vG_mem _ hI dir
  have hv2 := h.topo.gV_mem _ hg dir
  have hvI := h.topo.gV_mem _ hg IN
  have hw1 := h.topo.vW_mem _ hI
  have hw2 := h.topo.vW_mem _ hv2
  have hvW1 := h.topo.wV_mem _ hw1 (!d.sh.vDir d.worm.ira)
  have hvW2 := h.topo.wV_mem _ hw2 (!d.sh.vDir (d.sh.gV (d.sh.vG d.worm.ira dir) dir))
  have hkW : InK (mgK d dir) := subK_in (h.ghash.mem _ hg) (mulK_sgn_in _ (h.worm.k_in c.2))
  obtain ⟨gh, egh, -⟩ := replaceGHash_ok h.ghash hg hkW c1
  refine ⟨gh, fun u => ?_⟩
  simp only [Move.run]
  rw [if_neg (by simp [c])]
  unfold moveWormGCore
  simp only [deref_live hI, deref_live hM, deref_live hg, deref_live hv2, deref_live hvI, deref_live hw1,
    deref_live hw2, deref_live hvW1, deref_live hvW2, Res.ok_bind, if_true]
  rw [if_neg c0]
  have e0 : gHashCheck d.mo.gHash (subK (d.mo.gK (d.sh.vG d.worm.ira dir)) (mulK (sgn dir) d.worm.k)) =
      .ok false := by
    have := gHashCheck_ok d.mo.gHash hkW
    rw [c1] at this
    exact this
  rw [e0]
  simp only [Res.ok_bind, Bool.false_eq_true, if_false]
  have hgI := h.topo.gV_vG _ hI dir
  have hfar1 := h.topo.far_ne hI
  have hdm1 : d.fl.wDelta (d.sh.vW d.worm.ira) = true → d.fl.wMeas (d.sh.vW d.worm.ira) = false :=
    fun e => (h.delta _ hw1 e).1
  have hdm2 : d.fl.wDelta (d.sh.vW (mgV d dir)) = true → d.fl.wMeas (d.sh.vW (mgV d dir)) = false :=
    fun e => (h.delta _ hw2 e).1
  have hL1 := wW_line h.topo hI P d.ext d.co.r d.co.tau (mgSpin d dir) (mgFlag d dir)
    _ _ (d.fl.wGam (d.sh.vW d.worm.ira)) hdm1
  have hL2 := wW_line h.topo hv2 P d.ext d.co.r d.co.tau (mgSpin d dir) true
    _ _ (d.fl.wGam (d.sh.vW (mgV d dir))) hdm2
  have hG := gW_line d.sh (d.sh.vG d.worm.ira dir) dir P d.ext d.co.r d.co.tau (mgSpin d dir)
    (d.fl.gMeas (d.sh.vG d.worm.ira dir)) (d.fl.gGam (d.sh.vG d.worm.ira dir))
  rw [not_or, not_or] at c0
  obtain ⟨c0, c0', -⟩ := c0
  have spI : mgSpin d dir d.worm.ira =
      fun e => if e = dir then !d.co.spin d.worm.ira e else d.co.spin d.worm.ira e := by
    unfold mgSpin; rw [upd_ne _ _ (fun q => c0 q.symm), upd_same]
  have sp2 : mgSpin d dir (mgV d dir) =
      fun e => if e = !dir then !d.co.spin (mgV d dir) e else d.co.spin (mgV d dir) e := by
    unfold mgSpin; rw [upd_same]
  have spo : ∀ v, v ≠ d.worm.ira → v ≠ mgV d dir → mgSpin d dir v = d.co.spin v := by
    intro v h1 h2; unfold mgSpin; rw [upd_ne _ _ h2, upd_ne _ _ h1]
  have hL1' : wW P d.ext (d.sh.vDir d.worm.ira) (d.co.r d.worm.ira)
      (d.co.r (d.sh.wV (d.sh.vW d.worm.ira) (!d.sh.vDir d.worm.ira))) (d.co.tau d.worm.ira)
      (d.co.tau (d.sh.wV (d.sh.vW d.worm.ira) (!d.sh.vDir d.worm.ira)))
      (fun e => if e = dir then !d.co.spin d.worm.ira e else d.co.spin d.worm.ira e)
      (d.co.spin (d.sh.wV (d.sh.vW d.worm.ira) (!d.sh.vDir d.worm.ira))) (mgFlag d dir)
      (d.fl.wMeas (d.sh.vW d.worm.ira)) (d.fl.wDelta (d.sh.vW d.worm.ira)) (d.fl.wGam (d.sh.vW d.worm.ira)) =
      wExpected P d.sh (mgCo d dir) (mgFl d dir) d.ext (d.sh.vW d.worm.ira) := by
    have e5 : (mgFl d dir).wWorm (d.sh.vW d.worm.ira) = mgFlag d dir := by
      simp only [mgFl, upd_apply]
      split_ifs with q
      · unfold mgFlag
        rw [if_pos]
        have := h.topo.wV_cases hI (d.sh.vDir (mgV d dir))
        rw [q] at this
        unfold mgV at this c0 ⊢
        rw [h.topo.wV_vW _ hv2] at this
        rcases this with h3 | h3
        · exact absurd h3 c0
        · rw [h3]; unfold mgV at q; rw [q]
      · rfl
    refine Eq.trans ?_ (hL1.trans ?_)
    · rw [spI]
      by_cases e : d.sh.wV (d.sh.vW d.worm.ira) (!d.sh.vDir d.worm.ira) = mgV d dir
      · have : mgFlag d dir = true := by unfold mgFlag; rw [if_pos e]
        simp only [this, wW, if_true]
      · rw [spo _ hfar1 e]
    · unfold wExpected; rw [e5]; rfl
  have hL2' : wW P d.ext (d.sh.vDir (mgV d dir)) (d.co.r (mgV d dir))
      (d.co.r (d.sh.wV (d.sh.vW (mgV d dir)) (!d.sh.vDir (mgV d dir)))) (d.co.tau (mgV d dir))
      (d.co.tau (d.sh.wV (d.sh.vW (mgV d dir)) (!d.sh.vDir (mgV d dir))))
      (fun e => if e = !dir then !d.co.spin (mgV d dir) e else d.co.spin (mgV d dir) e)
      (d.co.spin (d.sh.wV (d.sh.vW (mgV d dir)) (!d.sh.vDir (mgV d dir)))) true
      (d.fl.wMeas (d.sh.vW (mgV d dir))) (d.fl.wDelta (d.sh.vW (mgV d dir))) (d.fl.wGam (d.sh.vW (mgV d dir))) =
      wExpected P d.sh (mgCo d dir) (mgFl d dir) d.ext (d.sh.vW (mgV d dir)) := by
    have e5 : (mgFl d dir).wWorm (d.sh.vW (mgV d dir)) = true := by simp only [mgFl, upd_same]
    refine Eq.trans ?_ (hL2.trans ?_)
    · simp only [wW, if_true]
    · unfold wExpected; rw [e5]; rfl
  have hG' : gW P d.ext (!dir) (d.co.r d.worm.ira) (d.co.r (mgV d dir)) (d.co.tau d.worm.ira)
      (d.co.tau (mgV d dir)) (!d.co.spin d.worm.ira dir) (!d.co.spin (mgV d dir) (!dir))
      (d.fl.gMeas (d.sh.vG d.worm.ira dir)) (d.fl.gGam (d.sh.vG d.worm.ira dir)) =
      gExpected P d.sh (mgCo d dir) (mgFl d dir) d.ext (d.sh.vG d.worm.ira dir) := by
    refine Eq.trans ?_ hG
    have e6 : d.sh.gV (d.sh.vG d.worm.ira dir) dir = mgV d dir := rfl
    rw [hgI, e6, spI, sp2]
    simp
  unfold mgFlag mgV at hL1'
  unfold mgV at hL2' hG'
  rw [hL1', hL2', hG', egh]
  rfl

theorem mgV_back (h : Inv P d) (hex : d.worm.exist = true) {dir : Dir} {gh : ℤ → Bool} :
    (movedG P d dir gh).sh.vG (movedG P d dir gh).worm.ira (!dir) = d.sh.vG d.worm.ira dir ∧
      mgV (movedG P d dir gh) (!dir) = d.worm.ira := by
  have hI := h.worm.ira_mem hex
  have hg := h.topo.vG_mem _ hI dir
  have e1 : (movedG P d dir gh).sh.vG (movedG P d dir gh).worm.ira (!dir) = d.sh.vG d.worm.ira dir :=
    h.topo.vG_gV _ hg dir
  refine ⟨e1, ?_⟩
  unfold mgV
  rw [e1]
  exact h.topo.gV_vG _ hI dir

theorem moveWormG_bal (hP : P.Wf) (h : Inv P d) (h' : Inv P d') {dir : Dir} {u p : Q} (hu : 0 ≤ u)
    {out : Out Q F} (e : (Move.moveWormG dir : Move Q).run P d u = .ok out) (ha : out.tag = .accept)
    (hd : out.d = d') (hp : out.prob = p) : Bal P d (Move.moveWormG dir) d' p := by
  by_cases hc : MoveGOk d dir
  swap
  · rw [moveWormG_skip h hc] at e; exact absurd ha (fun q => skip_not_accept e q)
  obtain ⟨gh, er⟩ := moveWormG_run h hc
  rw [er] at e
  have hd' : d' = movedG P d dir gh := by rw [← hd]; exact (metropolis_accept e ha).2.1
  subst hd'
  obtain ⟨⟨ho, hex⟩, hcan, hkf⟩ := hc
  rw [not_or, not_or] at hcan
  obtain ⟨c0, c0', c0''⟩ := hcan
  have hI := h.worm.ira_mem hex
  have hg := h.topo.vG_mem _ hI dir
  have hv2 := h.topo.gV_mem _ hg dir
  have hw1 := h.topo.vW_mem _ hI
  have hw2 := h.topo.vW_mem _ hv2
  have hk := h.worm.k_in hex
  have hwt1 := h.worm.wt hex
  have eI := h.topo.wV_vW _ hI
  have eM := h.worm.ne hex
  have hgI := h.topo.gV_vG _ hI dir
  obtain ⟨b1, b2⟩ := mgV_back (P := P) h hex (dir := dir) (gh := gh)
  have hkW : InK (mgK d dir) := subK_in (h.ghash.mem _ hg) (mulK_sgn_in _ hk)
  have ek : mgK (movedG P d dir gh) (!dir) = d.mo.gK (d.sh.vG d.worm.ira dir) := by
    unfold mgK
    rw [b1]
    simp only [movedG, upd_same]
    refine InK.eq_of_dvd (subK_in hkW (mulK_sgn_in _ hk)) (h.ghash.mem _ hg) ?_
    have a1 := subK_dvd (mgK d dir) (mulK (sgn (!dir)) d.worm.k)
    have a2 := subK_dvd (d.mo.gK (d.sh.vG d.worm.ira dir)) (mulK (sgn dir) d.worm.k)
    have a3 := mulK_dvd (sgn dir) d.worm.k
    have a4 := mulK_dvd (sgn (!dir)) d.worm.k
    unfold mgK at a1 ⊢
    rw [sgn_not] at a1 a4 ⊢
    rw [mul_neg] at a4
    omega
  have spI : mgSpin d dir d.worm.ira =
      fun e => if e = dir then !d.co.spin d.worm.ira e else d.co.spin d.worm.ira e := by
    unfold mgSpin; rw [upd_ne _ _ (fun q => c0 q.symm), upd_same]
  have sp2 : mgSpin d dir (mgV d dir) =
      fun e => if e = !dir then !d.co.spin (mgV d dir) e else d.co.spin (mgV d dir) e := by
    unfold mgSpin; rw [upd_same]
  have hsp : mgSpin (movedG P d dir gh) (!dir) = d.co.spin := by
    funext v e
    unfold mgSpin
    rw [b2]
    simp only [movedG, mgCo, spI, sp2, upd_apply]
    by_cases q1 : v = d.worm.ira
    · subst q1; rw [if_pos rfl]; simp only [Bool.not_not]; split_ifs with q2
      · exact Bool.not_not _
      · rfl
    · rw [if_neg q1]
      by_cases q2 : v = mgV d dir
      · subst q2; rw [if_pos rfl]; split_ifs with q3
        · exact Bool.not_not _
        · rfl
      · rw [if_neg q2]; unfold mgSpin; rw [upd_ne _ _ q2, upd_ne _ _ q1]
  have hcan' : canNotMoveG d.worm.dSpin
      ((movedG P d dir gh).co.spin (d.sh.gV (d.sh.vG d.worm.ira dir) IN) OUT) (!dir) = false := by
    have s1 : (movedG P d dir gh).co.spin (d.sh.gV (d.sh.vG d.worm.ira dir) IN) OUT =
        !d.co.spin (d.sh.gV (d.sh.vG d.worm.ira dir) IN) OUT := by
      show mgSpin d dir _ _ = _
      cases dir
      · have : mgSpin d IN (mgV d IN) OUT = !d.co.spin (mgV d IN) OUT := by rw [sp2]; simp
        exact this
      · simp only [Bool.not_true] at hgI
        rw [hgI, spI]; simp
    rw [s1]
    rw [Bool.not_eq_true] at c0''
    refine Eq.trans ?_ c0''
    generalize d.co.spin (d.sh.gV (d.sh.vG d.worm.ira dir) IN) OUT = s0
    rcases h.worm.dSpin hex with q | q <;> rw [q] <;> cases dir <;> cases s0 <;> rfl
  have hcr : MoveGOk (movedG P d dir gh) (!dir) := by
    refine ⟨⟨ho, hex⟩, ?_, ?_⟩
    · rw [b1, b2, not_or, not_or]
      exact ⟨fun q => c0 q.symm, eM, by rw [Bool.not_eq_true]; exact hcan'⟩
    · rw [ek]
      exact h.ghash.free (k := mgK d dir) h'.ghash hg hkf
  obtain ⟨gh', er'⟩ := moveWormG_run h' hcr
  have hflag : ∀ w ∈ d.W.live, (mgFl (movedG P d dir gh) (!dir)).wWorm w = d.fl.wWorm w := by
    intro w hw
    have hf := h.worm.flag w hw
    simp only [hex, true_and] at hf
    simp only [mgFl]
    rw [b2]
    simp only [upd_apply, movedG, mgFl]
    have hcase2 := h.topo.wV_cases hv2
    have hfar2 := h.topo.far_ne hv2
    by_cases q1 : w = d.sh.vW d.worm.ira
    · rw [if_pos q1]
      exact (hf.2 ⟨d.sh.vDir d.worm.ira, Or.inl (by rw [q1]; exact eI)⟩).symm
    · rw [if_neg q1]
      by_cases q2 : w = d.sh.vW (mgV d dir)
      · rw [if_pos q2]
        subst q2
        have n1 : ∀ x, d.sh.wV (d.sh.vW (mgV d dir)) x ≠ d.worm.ira := fun x hx =>
          q1 ((h.topo.vW_wV _ hw2 x).symm.trans (by rw [hx]))
        have : mgFlag (movedG P d dir gh) (!dir) = true ↔ d.fl.wWorm (d.sh.vW (mgV d dir)) = true := by
          rw [hf]
          show (if d.sh.wV (d.sh.vW (mgV d dir)) (!d.sh.vDir (mgV d dir)) = mgV (movedG P d dir gh) (!dir) then true
            else ({ d.worm with ira := mgV d dir, wt := 1 } : Worm Q).isWorm
              (d.sh.wV (d.sh.vW (mgV d dir)) (!d.sh.vDir (mgV d dir)))) = true ↔ _
          rw [b2, if_neg (n1 _)]
          simp only [Worm.isWorm, hex, Bool.true_and, Bool.or_eq_true, beq_iff_eq]
          constructor
          · rintro (q | q)
            · exact absurd q.symm hfar2
            · exact ⟨_, Or.inr q.symm⟩
          · rintro ⟨x, q | q⟩
            · exact absurd q (n1 x)
            · rcases hcase2 x with q3 | q3
              · exact absurd (q3.symm.trans q) c0'
              · exact Or.inr (q.symm.trans q3)
        exact Bool.eq_iff_iff.2 this
      · rw [if_neg q2, if_neg q2, if_neg q1]
  have hcells : SameCells d (movedG P (movedG P d dir gh) (!dir) gh') := by
    constructor <;> first
      | (intros; rfl)
      | skip
    · intro _ v _
      show mgSpin _ _ v = _
      rw [hsp]
    · intro g _
      show upd (upd d.mo.gK (d.sh.vG d.worm.ira dir) (mgK d dir))
        ((movedG P d dir gh).sh.vG (movedG P d dir gh).worm.ira (!dir)) (mgK (movedG P d dir gh) (!dir)) g = d.mo.gK g
      rw [b1, ek, upd_apply]
      split_ifs with q
      · rw [q]
      · rw [upd_ne _ _ q]
    · exact hflag
    · intro _
      show ({ d.worm with ira := mgV (movedG P d dir gh) (!dir), wt := 1 } : Worm Q) = d.worm
      rw [b2, ← hwt1]
  have hparts := hcells.parts
  have b3 : (movedG P d dir gh).sh.vW (movedG P d dir gh).worm.ira = d.sh.vW (mgV d dir) := rfl
  refine bal_core hP h h' hu e ha hd hp rfl (by rw [hwt1]; norm_num) (c' := 1 / (movedG P d dir gh).worm.wt)
    (by rw [hwt1]; simp [movedG]) (m := .moveWormG dir) ⟨idx_lt P (op := .moveWormG) (by decide), trivial⟩
    (by simp [Move.rev]) er' rfl ?_ hparts ?_
  · have n1 := hparts.wExp_ne h ho hw1
    have n2 := hparts.wExp_ne h ho hw2
    have n3 := hparts.gExp_ne h ho hg
    unfold mgRatio
    rw [b1, b2, b3]
    refine div_ne_zero (mul_ne_zero (mul_ne_zero n2 n1) n3) (mul_ne_zero (mul_ne_zero ?_ ?_) ?_)
    · exact h'.line.g_ne _ hg
    · exact h'.line.w_ne _ hw2
    · exact h'.line.w_ne _ hw1
  · have e1 : sector P (movedG P d dir gh) = sector P d := sector_congr P rfl rfl rfl hwt1.symm rfl rfl
    rw [e1, hwt1]
    simp only [Move.density, Move.rev]
    ring

/-! ### Reconnecting fermion lines -/

/-- Connections after the exchange. -/
def rcSh (d : Diag Q F) (dir : Dir) : Shape :=
  { d.sh with
    vG := upd2 (upd2 d.sh.vG d.worm.masha dir (d.sh.vG d.worm.ira dir)) d.worm.ira dir (d.sh.vG d.worm.masha dir)
    gV := upd2 (upd2 d.sh.gV (d.sh.vG d.worm.ira dir) (!dir) d.worm.masha) (d.sh.vG d.worm.masha dir) (!dir)
      d.worm.ira }

/-- Ratio of weights of the exchange. -/
def rcRatio (P : Params Q F) (d : Diag Q F) (dir : Dir) : F :=
  (-1) * gExpected P (rcSh d dir) d.co d.fl d.ext (d.sh.vG d.worm.ira dir) *
  gExpected P (rcSh d dir) d.co d.fl d.ext (d.sh.vG d.worm.masha dir) /
  (d.wt.gWt (d.sh.vG d.worm.ira dir) * d.wt.gWt (d.sh.vG d.worm.masha dir))

/-- Diagram after `Reconnect`. -/
def reconnected (P : Params Q F) (d : Diag Q F) (dir : Dir) : Diag Q F :=
  { d with
    phase := d.phase * P.ph (rcRatio P d dir)
    weight := d.weight * rcRatio P d dir
    sfl := d.sfl * (-1)
    worm := { d.worm with k := addK d.worm.k (mulK (sgn dir)
      (subK (d.mo.gK (d.sh.vG d.worm.masha dir)) (d.mo.gK (d.sh.vG d.worm.ira dir)))) }
    wt := { d.wt with
      gWt := upd (upd d.wt.gWt (d.sh.vG d.worm.ira dir)
        (gExpected P (rcSh d dir) d.co d.fl d.ext (d.sh.vG d.worm.ira dir))) (d.sh.vG d.worm.masha dir)
        (gExpected P (rcSh d dir) d.co d.fl d.ext (d.sh.vG d.worm.masha dir)) }
    sh := rcSh d dir }

/-- When `Reconnect` makes a proposal. -/
def RcOk (d : Diag Q F) (dir : Dir) : Prop :=
  (d.order ≠ 0 ∧ d.worm.exist = true) ∧ d.co.r d.worm.ira = d.co.r d.worm.masha ∧
  d.co.spin (d.sh.gV (d.sh.vG d.worm.ira dir) IN) OUT = d.co.spin (d.sh.gV (d.sh.vG d.worm.masha dir) IN) OUT

theorem reconnect_skip (h : Inv P d) {dir : Dir} (hc : ¬ RcOk d dir) (u : Q) :
    (Move.reconnect dir : Move Q).run P d u = skip d := by
  simp only [Move.run]
  by_cases c : d.order = 0 ∨ d.worm.exist = false
  · rw [if_pos c]
  rw [if_neg c]
  simp only [not_or, Bool.not_eq_false] at c
  have hI := h.worm.ira_mem c.2
  have hM := h.worm.masha_mem c.2
  have hg1 := h.topo.vG_mem _ hI dir
  have hg2 := h.topo.vG_mem _ hM dir
  rw [deref_live hI, deref_live hM, Res.ok_bind, Res.ok_bind]
  by_cases c1 : d.co.r d.worm.ira = d.co.r d.worm.masha
  swap
  · rw [if_pos c1]
  rw [if_neg (not_not.2 c1)]
  unfold reconnectCore
  simp only [deref_live hI, deref_live hM, deref_live hg1, deref_live hg2, deref_live (h.topo.gV_mem _ hg1 IN),
    deref_live (h.topo.gV_mem _ hg2 IN), Res.ok_bind]
  rw [if_pos (fun q => hc ⟨c, c1, q⟩)]

theorem reconnect_run (h : Inv P d) {dir : Dir} (hc : RcOk d dir) (u : Q) :
    (Move.reconnect dir : Move Q).run P d u =
      metropolis d d (P.mod (rcRatio P d dir) * 1) u (.ok (reconnected P d dir)) := by
  obtain ⟨⟨ho, hw⟩, c1, c2⟩ := hc
  have hI := h.worm.ira_mem hw
  have hM := h.worm.masha_mem hw
  have hg1 := h.topo.vG_mem _ hI dir
  have hg2 := h.topo.vG_mem _ hM dir
  have hne := h.worm.ne hw
  have hgne := h.topo.gV_ne_of_ne hI hM hne dir
  simp only [Move.run]
  rw [if_neg (by simp [ho, hw]), deref_live hI, deref_live hM, Res.ok_bind, Res.ok_bind, if_neg (not_not.2 c1)]
  unfold reconnectCore
  simp only [deref_live hI, deref_live hM, deref_live hg1, deref_live hg2, deref_live (h.topo.gV_mem _ hg1 IN),
    deref_live (h.topo.gV_mem _ hg2 IN), deref_live (h.topo.gV_mem _ hg1 dir),
    deref_live (h.topo.gV_mem _ hg2 dir), Res.ok_bind]
  rw [if_neg (not_not.2 c2)]
  have f1 : (rcSh d dir).gV (d.sh.vG d.worm.ira dir) (!dir) = d.worm.masha := by simp [rcSh, upd2_apply, hgne]
  have f2 : (rcSh d dir).gV (d.sh.vG d.worm.ira dir) dir = d.sh.gV (d.sh.vG d.worm.ira dir) dir := by
    simp [rcSh, upd2_apply, hgne]
  have f3 : (rcSh d dir).gV (d.sh.vG d.worm.masha dir) (!dir) = d.worm.ira := by simp [rcSh, upd2_apply]
  have f4 : (rcSh d dir).gV (d.sh.vG d.worm.masha dir) dir = d.sh.gV (d.sh.vG d.worm.masha dir) dir := by
    simp [rcSh, upd2_apply]
  have hL1 := gW_line (rcSh d dir) (d.sh.vG d.worm.ira dir) dir P d.ext d.co.r d.co.tau d.co.spin
    (d.fl.gMeas (d.sh.vG d.worm.ira dir)) (d.fl.gGam (d.sh.vG d.worm.ira dir))
  have hL2 := gW_line (rcSh d dir) (d.sh.vG d.worm.masha dir) dir P d.ext d.co.r d.co.tau d.co.spin
    (d.fl.gMeas (d.sh.vG d.worm.masha dir)) (d.fl.gGam (d.sh.vG d.worm.masha dir))
  rw [f1, f2] at hL1
  rw [f3, f4] at hL2
  rw [hL1, hL2, mul_one]
  rfl

theorem reconnect_bal (hP : P.Wf) (h : Inv P d) (h' : Inv P d') {dir : Dir} {u p : Q} (hu : 0 ≤ u)
    {out : Out Q F} (e : (Move.reconnect dir : Move Q).run P d u = .ok out) (ha : out.tag = .accept)
    (hd : out.d = d') (hp : out.prob = p) : Bal P d (Move.reconnect dir) d' p := by
  by_cases hc : RcOk d dir
  swap
  · rw [reconnect_skip h hc] at e; exact absurd ha (fun q => skip_not_accept e q)
  rw [reconnect_run h hc] at e
  have hd' : d' = reconnected P d dir := by rw [← hd]; exact (metropolis_accept e ha).2.1
  subst hd'
  obtain ⟨⟨ho, hw⟩, c1, c2⟩ := hc
  have hI := h.worm.ira_mem hw
  have hM := h.worm.masha_mem hw
  have hg1 := h.topo.vG_mem _ hI dir
  have hg2 := h.topo.vG_mem _ hM dir
  have hne := h.worm.ne hw
  have hgne := h.topo.gV_ne_of_ne hI hM hne dir
  have b1 : (reconnected P d dir).sh.vG (reconnected P d dir).worm.ira dir = d.sh.vG d.worm.masha dir := by
    show (rcSh d dir).vG d.worm.ira dir = _
    simp [rcSh, upd2_apply]
  have b2 : (reconnected P d dir).sh.vG (reconnected P d dir).worm.masha dir = d.sh.vG d.worm.ira dir := by
    show (rcSh d dir).vG d.worm.masha dir = _
    simp [rcSh, upd2_apply, hne.symm]
  have s1 := spin_end h.spin hg1
  have s2 := spin_end h.spin hg2
  have e1 := h.topo.gV_vG _ hI dir
  have e2 := h.topo.gV_vG _ hM dir
  have hcr : RcOk (reconnected P d dir) dir := by
    refine ⟨⟨ho, hw⟩, c1, ?_⟩
    rw [b1, b2]
    show d.co.spin ((rcSh d dir).gV _ IN) OUT = d.co.spin ((rcSh d dir).gV _ IN) OUT
    have t1 := s1 (!dir)
    have t2 := s2 (!dir)
    rw [e1, Bool.not_not] at t1
    rw [e2, Bool.not_not] at t2
    cases dir
    · simp [rcSh, upd2_apply, c2]
    · simp only [rcSh, upd2_apply]
      simp only [Bool.not_true, and_self, if_true, hgne, false_and, if_false]
      rw [t1, t2, c2]
  have er' := reconnect_run h' hcr
  have hsh1 : ∀ v, (rcSh (reconnected P d dir) dir).vG v = d.sh.vG v := by
    intro v
    funext x
    show upd2 (upd2 (rcSh d dir).vG d.worm.masha dir _) d.worm.ira dir _ v x = _
    rw [b1, b2]
    simp only [rcSh, upd2_apply]
    split_ifs with q1 q2
    · rw [q1.1, q1.2]
    · rw [q2.1, q2.2]
    · rfl
  have hsh2 : ∀ g, (rcSh (reconnected P d dir) dir).gV g = d.sh.gV g := by
    intro g
    funext x
    show upd2 (upd2 (rcSh d dir).gV _ (!dir) d.worm.masha) _ (!dir) d.worm.ira g x = _
    rw [b1, b2]
    simp only [rcSh, upd2_apply]
    split_ifs with q1 q2
    · rw [q1.1, q1.2, e1]
    · rw [q2.1, q2.2, e2]
    · rfl
  have hcells : SameCells d (reconnected P (reconnected P d dir) dir) := by
    constructor <;> first
      | (intros; rfl)
      | skip
    · show d.sfl * (-1) * (-1) = d.sfl
      ring
    · intro v _; exact hsh1 v
    · intro g _; exact hsh2 g
    · intro _
      show ({ d.worm with k := _ } : Worm Q) = d.worm
      have : (reconnected P (reconnected P d dir) dir).worm.k = d.worm.k := by
        show addK (addK d.worm.k (mulK (sgn dir) (subK _ _))) (mulK (sgn dir) (subK _ _)) = _
        rw [b1, b2]
        show addK (addK d.worm.k (mulK (sgn dir) (subK (d.mo.gK (d.sh.vG d.worm.masha dir))
          (d.mo.gK (d.sh.vG d.worm.ira dir))))) (mulK (sgn dir) (subK (d.mo.gK (d.sh.vG d.worm.ira dir))
          (d.mo.gK (d.sh.vG d.worm.masha dir)))) = d.worm.k
        have k1 := h.ghash.mem _ hg1
        have k2 := h.ghash.mem _ hg2
        have k0 := h.worm.k_in hw
        have a1 := subK_dvd (d.mo.gK (d.sh.vG d.worm.masha dir)) (d.mo.gK (d.sh.vG d.worm.ira dir))
        have a2 := subK_dvd (d.mo.gK (d.sh.vG d.worm.ira dir)) (d.mo.gK (d.sh.vG d.worm.masha dir))
        have i1 := subK_in k2 k1
        have i2 := subK_in k1 k2
        refine InK.eq_of_dvd (addK_in (addK_in k0 (mulK_sgn_in _ i1)) (mulK_sgn_in _ i2)) k0 ?_
        have a3 := addK_dvd d.worm.k (mulK (sgn dir) (subK (d.mo.gK (d.sh.vG d.worm.masha dir))
          (d.mo.gK (d.sh.vG d.worm.ira dir))))
        have a4 := addK_dvd (addK d.worm.k (mulK (sgn dir) (subK (d.mo.gK (d.sh.vG d.worm.masha dir))
          (d.mo.gK (d.sh.vG d.worm.ira dir))))) (mulK (sgn dir) (subK (d.mo.gK (d.sh.vG d.worm.ira dir))
          (d.mo.gK (d.sh.vG d.worm.masha dir))))
        have a5 := mulK_dvd (sgn dir) (subK (d.mo.gK (d.sh.vG d.worm.masha dir))
          (d.mo.gK (d.sh.vG d.worm.ira dir)))
        have a6 := mulK_dvd (sgn dir) (subK (d.mo.gK (d.sh.vG d.worm.ira dir))
          (d.mo.gK (d.sh.vG d.worm.masha dir)))
        cases dir <;> simp only [sgn] at * <;> simp at a1 a2 a3 a4 a5 a6 ⊢ <;> omega
      show ({ d.worm with k := (reconnected P (reconnected P d dir) dir).worm.k } : Worm Q) = d.worm
      rw [this]
  have hparts := hcells.parts
  refine bal_core hP h h' hu e ha hd hp rfl one_pos (c' := 1) (one_mul 1)
    (m := .reconnect dir) ⟨idx_lt P (op := .reconnect) (by decide), trivial⟩ rfl er' rfl ?_ hparts ?_
  · have n1 := hparts.gExp_ne h ho hg1
    have n2 := hparts.gExp_ne h ho hg2
    unfold rcRatio
    rw [b1, b2]
    refine div_ne_zero (mul_ne_zero (mul_ne_zero (by norm_num) n2) n1) (mul_ne_zero ?_ ?_)
    · exact h'.line.g_ne _ hg2
    · exact h'.line.g_ne _ hg1
  · have e1 : sector P (reconnected P d dir) = sector P d := sector_congr P rfl rfl rfl rfl rfl rfl
    rw [e1, one_mul]
    rfl

end
end Feyn
