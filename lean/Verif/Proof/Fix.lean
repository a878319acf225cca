import Verif.Proof.Basic
import Verif.Spec.Run

/-! Recomputing all weights of a consistent diagram (`FixDiagram`). -/

namespace Feyn

set_option linter.unusedSectionVars false
set_option linter.unusedSimpArgs false

section
variable {Q F : Type} [Field Q] [LinearOrder Q] [Field F]

theorem loopM_append {α β : Type} (f : β → α → Res β) (b : β) (l₁ l₂ : List α) :
    loopM f b (l₁ ++ l₂) = (loopM f b l₁ >>= fun b' => loopM f b' l₂) := by
  induction l₁ generalizing b with
  | nil => simp [loopM]
  | cons a as ih =>
    simp only [List.cons_append, loopM]
    cases f b a <;> simp [ih]

/-- Weight of a propagator outside composite lines. -/
def gNew (P : Params Q F) (d : Diag Q F) (g : ℕ) : F :=
  gW0 P d.ext (d.co.r (d.sh.gV g IN)) (d.co.r (d.sh.gV g OUT)) (d.co.tau (d.sh.gV g IN))
    (d.co.tau (d.sh.gV g OUT)) (d.co.spin (d.sh.gV g IN) OUT) (d.co.spin (d.sh.gV g OUT) IN)
    (d.fl.gMeas g) false

/-- State after the first `i` propagators. -/
def fixGTo (P : Params Q F) (d : Diag Q F) (i : ℕ) : Diag Q F :=
  { d with
    fl := { d.fl with gGam := fun g => if ∃ j < i, d.G.slot j = g then false else d.fl.gGam g }
    wt := { d.wt with gWt := fun g => if ∃ j < i, d.G.slot j = g then gNew P d g else d.wt.gWt g }
    weight := d.weight * ∏ j ∈ Finset.range i, gNew P d (d.G.slot j) }

theorem loop_fixG {P : Params Q F} {d : Diag Q F} (hW : d.G.Wf) (hT : TopoOk d.Ver.live d.G.live d.W.live d.sh)
    {i : ℕ} (hi : i ≤ d.G.avail) : loopM (fixG P) d (List.range i) = .ok (fixGTo P d i) := by
  induction i with
  | zero => simp [loopM, fixGTo]
  | succ i ih =>
    have ha := hW.avail_le
    have hg : d.G.slot i ∈ d.G.live := Bundle.slot_mem_live hW (by omega)
    rw [List.range_succ, loopM_append, ih (by omega), Res.ok_bind]
    simp only [loopM, fixG, fixGTo]
    have hget : d.G.get i = .ok (d.G.slot i) := by
      simp only [Bundle.get]; rw [if_neg (by omega), if_pos (by omega)]
    have v1 := hT.vG_gV _ hg IN
    have v2 := hT.vG_gV _ hg OUT
    simp only [Bool.not_false, Bool.not_true] at v1 v2
    rw [hget]
    simp only [Res.ok_bind, deref_live hg, deref_live (hT.gV_mem _ hg IN), deref_live (hT.gV_mem _ hg OUT)]
    congr 1
    have hsh : upd2 (upd2 d.sh.vG (d.sh.gV (d.G.slot i) IN) OUT (d.G.slot i)) (d.sh.gV (d.G.slot i) OUT) IN
        (d.G.slot i) = d.sh.vG := by
      funext x e
      simp only [upd2]
      split_ifs with c1 c2
      · obtain ⟨rfl, rfl⟩ := c1; exact v2.symm
      · obtain ⟨rfl, rfl⟩ := c2; exact v1.symm
      · rfl
    rw [hsh]
    have hex : ∀ g, (∃ j < i + 1, d.G.slot j = g) ↔ (g = d.G.slot i ∨ ∃ j < i, d.G.slot j = g) := by
      intro g
      constructor
      · rintro ⟨j, hj, rfl⟩
        rcases Nat.lt_succ_iff_lt_or_eq.1 hj with h | rfl
        · exact Or.inr ⟨j, h, rfl⟩
        · exact Or.inl rfl
      · rintro (rfl | ⟨j, hj, rfl⟩)
        · exact ⟨i, by omega, rfl⟩
        · exact ⟨j, by omega, rfl⟩
    have e1 : upd (fun g => if ∃ j < i, d.G.slot j = g then false else d.fl.gGam g) (d.G.slot i) false
        = fun g => if ∃ j < i + 1, d.G.slot j = g then false else d.fl.gGam g := by
      funext g
      simp only [upd, hex]
      by_cases c : g = d.G.slot i <;> simp [c]
    have e2 : upd (fun g => if ∃ j < i, d.G.slot j = g then gNew P d g else d.wt.gWt g) (d.G.slot i)
        (gNew P d (d.G.slot i))
        = fun g => if ∃ j < i + 1, d.G.slot j = g then gNew P d g else d.wt.gWt g := by
      funext g
      simp only [upd, hex]
      by_cases c : g = d.G.slot i <;> simp [c]
    rw [e1, Finset.prod_range_succ, ← mul_assoc, ← e2]
    rfl

/-- The worm flag as `FixDiagram` computes it. -/
def wFlag (d : Diag Q F) (w : ℕ) : Bool :=
  d.sh.wV w IN == d.worm.ira || d.sh.wV w IN == d.worm.masha || d.sh.wV w OUT == d.worm.ira ||
    d.sh.wV w OUT == d.worm.masha

/-- Weight of an interaction outside composite lines. -/
def wNew (P : Params Q F) (d : Diag Q F) (w : ℕ) : F :=
  wW0 P d.ext (d.co.r (d.sh.wV w IN)) (d.co.r (d.sh.wV w OUT)) (d.co.tau (d.sh.wV w IN))
    (d.co.tau (d.sh.wV w OUT)) (d.co.spin (d.sh.wV w IN)) (d.co.spin (d.sh.wV w OUT))
    (wFlag d w) (d.fl.wMeas w) (d.fl.wDelta w) false

/-- State after the first `i` interactions. -/
def fixWTo (P : Params Q F) (d : Diag Q F) (i : ℕ) : Diag Q F :=
  { d with
    fl := { d.fl with
      wWorm := fun w => if ∃ j < i, d.W.slot j = w then wFlag d w else d.fl.wWorm w
      wGam := fun w => if ∃ j < i, d.W.slot j = w then false else d.fl.wGam w }
    wt := { d.wt with wWt := fun w => if ∃ j < i, d.W.slot j = w then wNew P d w else d.wt.wWt w }
    weight := d.weight * ∏ j ∈ Finset.range i, wNew P d (d.W.slot j) }

theorem loop_fixW {P : Params Q F} {d : Diag Q F} (hW : d.W.Wf) (hT : TopoOk d.Ver.live d.G.live d.W.live d.sh)
    {i : ℕ} (hi : i ≤ d.W.avail) : loopM (fixW P) d (List.range i) = .ok (fixWTo P d i) := by
  induction i with
  | zero => simp [loopM, fixWTo]
  | succ i ih =>
    have ha := hW.avail_le
    have hw : d.W.slot i ∈ d.W.live := Bundle.slot_mem_live hW (by omega)
    rw [List.range_succ, loopM_append, ih (by omega), Res.ok_bind]
    simp only [loopM, fixW, fixWTo]
    have hget : d.W.get i = .ok (d.W.slot i) := by
      simp only [Bundle.get]; rw [if_neg (by omega), if_pos (by omega)]
    have v1 := hT.vW_wV _ hw IN
    have v2 := hT.vW_wV _ hw OUT
    have u1 := hT.vDir_wV _ hw IN
    have u2 := hT.vDir_wV _ hw OUT
    rw [hget]
    simp only [Res.ok_bind, deref_live hw, deref_live (hT.wV_mem _ hw IN), deref_live (hT.wV_mem _ hw OUT)]
    congr 1
    have hsh : upd (upd d.sh.vW (d.sh.wV (d.W.slot i) IN) (d.W.slot i)) (d.sh.wV (d.W.slot i) OUT)
        (d.W.slot i) = d.sh.vW := by
      funext x
      simp only [upd]
      split_ifs with c1 c2
      · subst c1; exact v2.symm
      · subst c2; exact v1.symm
      · rfl
    have hsd : upd (upd d.sh.vDir (d.sh.wV (d.W.slot i) IN) IN) (d.sh.wV (d.W.slot i) OUT) OUT
        = d.sh.vDir := by
      funext x
      simp only [upd]
      split_ifs with c1 c2
      · subst c1; exact u2.symm
      · subst c2; exact u1.symm
      · rfl
    rw [hsh, hsd]
    have hex : ∀ g, (∃ j < i + 1, d.W.slot j = g) ↔ (g = d.W.slot i ∨ ∃ j < i, d.W.slot j = g) := by
      intro g
      constructor
      · rintro ⟨j, hj, rfl⟩
        rcases Nat.lt_succ_iff_lt_or_eq.1 hj with h | rfl
        · exact Or.inr ⟨j, h, rfl⟩
        · exact Or.inl rfl
      · rintro (rfl | ⟨j, hj, rfl⟩)
        · exact ⟨i, by omega, rfl⟩
        · exact ⟨j, by omega, rfl⟩
    have e0 : upd (fun g => if ∃ j < i, d.W.slot j = g then wFlag d g else d.fl.wWorm g) (d.W.slot i)
        (wFlag d (d.W.slot i))
        = fun g => if ∃ j < i + 1, d.W.slot j = g then wFlag d g else d.fl.wWorm g := by
      funext g
      simp only [upd, hex]
      by_cases c : g = d.W.slot i <;> simp [c]
    have e1 : upd (fun g => if ∃ j < i, d.W.slot j = g then false else d.fl.wGam g) (d.W.slot i) false
        = fun g => if ∃ j < i + 1, d.W.slot j = g then false else d.fl.wGam g := by
      funext g
      simp only [upd, hex]
      by_cases c : g = d.W.slot i <;> simp [c]
    have e2 : upd (fun g => if ∃ j < i, d.W.slot j = g then wNew P d g else d.wt.wWt g) (d.W.slot i)
        (wNew P d (d.W.slot i))
        = fun g => if ∃ j < i + 1, d.W.slot j = g then wNew P d g else d.wt.wWt g := by
      funext g
      simp only [upd, hex]
      by_cases c : g = d.W.slot i <;> simp [c]
    rw [e1, Finset.prod_range_succ, ← mul_assoc, ← e2, ← e0]
    rfl

/-- The result of `FixDiagram`. -/
def fixed (P : Params Q F) (d : Diag Q F) : Diag Q F :=
  let w := (∏ g ∈ d.G.live, gNew P d g) * (∏ w ∈ d.W.live, wNew P d w) * ((d.sfl : F) * (-1) ^ d.W.avail)
  { d with
    order := d.W.avail
    worm := { d.worm with wt := 1 }
    fl := { d.fl with
      gGam := fun g => if g ∈ d.G.live then false else d.fl.gGam g
      wWorm := fun w => if w ∈ d.W.live then wFlag d w else d.fl.wWorm w
      wGam := fun w => if w ∈ d.W.live then false else d.fl.wGam w }
    wt := {
      gWt := fun g => if g ∈ d.G.live then gNew P d g else d.wt.gWt g
      wWt := fun w => if w ∈ d.W.live then wNew P d w else d.wt.wWt w }
    weight := w
    phase := P.ph w }

theorem exists_slot_iff {b : Bundle} (h : b.Wf) (p : ℕ) : (∃ j < b.avail, b.slot j = p) ↔ p ∈ b.live := by
  rw [Bundle.live_eq_image h]; simp

theorem prod_slot {b : Bundle} (h : b.Wf) (f : ℕ → F) : ∏ j ∈ Finset.range b.avail, f (b.slot j) = ∏ p ∈ b.live, f p := by
  rw [Bundle.live_eq_image h, Finset.prod_image]
  intro i hi j hj e
  have := h.avail_le
  simp only [Finset.coe_range, Set.mem_Iio] at hi hj
  exact Bundle.slot_inj h (by omega) (by omega) e

theorem fixLines_eq {P : Params Q F} {d : Diag Q F} (hG : d.G.Wf) (hW : d.W.Wf)
    (hT : TopoOk d.Ver.live d.G.live d.W.live d.sh) :
    fixLines P { d with order := d.W.avail, worm := { d.worm with wt := 1 } } = .ok (fixed P d) := by
  unfold fixLines
  dsimp only
  rw [loop_fixG (d := { d with order := d.W.avail, worm := { d.worm with wt := 1 }, weight := 1 }) hG hT le_rfl,
    Res.ok_bind]
  rw [loop_fixW (d := fixGTo P { d with order := d.W.avail, worm := { d.worm with wt := 1 }, weight := 1 }
    d.G.avail) hW hT le_rfl, Res.ok_bind]
  have eg : ∀ g, gNew P { d with order := d.W.avail, worm := { d.worm with wt := 1 }, weight := 1 } g = gNew P d g :=
    fun _ => rfl
  have ew : ∀ w, wNew P (fixGTo P { d with order := d.W.avail, worm := { d.worm with wt := 1 }, weight := 1 }
    d.G.avail) w = wNew P d w := fun _ => rfl
  have ef : ∀ w, wFlag (fixGTo P { d with order := d.W.avail, worm := { d.worm with wt := 1 }, weight := 1 }
    d.G.avail) w = wFlag d w := fun _ => rfl
  have hs : (if d.W.avail % 2 = 0 then (1 : F) else -1) = (-1) ^ d.W.avail := by
    split_ifs with c
    · exact (Even.neg_one_pow (Nat.even_iff.2 c)).symm
    · exact (Odd.neg_one_pow (Nat.odd_iff.2 (by omega))).symm
  simp only [fixWTo, ew, ef]
  simp only [fixGTo, eg, exists_slot_iff hG, exists_slot_iff hW, prod_slot hG, prod_slot hW, one_mul, hs]
  rfl

theorem fixDiagram_eq {P : Params Q F} {d : Diag Q F} (hγ : d.hasGamma = 0) (hG : d.G.Wf) (hW : d.W.Wf)
    (hT : TopoOk d.Ver.live d.G.live d.W.live d.sh)
    (hI : d.worm.exist = true → d.worm.ira ∈ d.Ver.live) (hM : d.worm.exist = true → d.worm.masha ∈ d.Ver.live) :
    fixDiagram P d = .ok (fixed P d) := by
  have c0 : ¬ d.hasGamma ≠ 0 := by omega
  unfold fixDiagram
  rw [if_neg c0]
  by_cases c : d.worm.exist = true
  · rw [if_pos c, deref_live (hI c), deref_live (hM c)]
    exact fixLines_eq hG hW hT
  · rw [if_neg c]
    exact fixLines_eq hG hW hT

theorem Inv.gGam_false {P : Params Q F} {d : Diag Q F} (h : Inv P d) (hγ : d.hasGamma = 0) :
    ∀ g ∈ d.G.live, d.fl.gGam g = false := fun g hg => by
  by_contra c
  have := ((h.gamma.g_flag g hg).1 (by simpa using c)).1
  omega

theorem Inv.wGam_false {P : Params Q F} {d : Diag Q F} (h : Inv P d) (hγ : d.hasGamma = 0) :
    ∀ w ∈ d.W.live, d.fl.wGam w = false := fun w hw => by
  by_contra c
  have := ((h.gamma.w_flag w hw).1 (by simpa using c)).1
  omega

theorem wFlag_eq {P : Params Q F} {d : Diag Q F} (h : Inv P d) (hs : NoStaleWorm d) :
    ∀ w ∈ d.W.live, wFlag d w = d.fl.wWorm w := fun w hw => by
  rw [Bool.eq_iff_iff, h.worm.flag w hw]
  have m0 := h.topo.wV_mem w hw IN
  have m1 := h.topo.wV_mem w hw OUT
  rcases hs with hs | ⟨h1, h2⟩
  · simp only [wFlag, hs, true_and, Bool.or_eq_true, beq_iff_eq]
    constructor
    · rintro (((q | q) | q) | q)
      · exact ⟨IN, Or.inl q⟩
      · exact ⟨IN, Or.inr q⟩
      · exact ⟨OUT, Or.inl q⟩
      · exact ⟨OUT, Or.inr q⟩
    · rintro ⟨e, q⟩
      cases e <;> tauto
  · have n1 : d.sh.wV w IN ≠ d.worm.ira := fun q => h1 (q ▸ m0)
    have n2 : d.sh.wV w IN ≠ d.worm.masha := fun q => h2 (q ▸ m0)
    have n3 : d.sh.wV w OUT ≠ d.worm.ira := fun q => h1 (q ▸ m1)
    have n4 : d.sh.wV w OUT ≠ d.worm.masha := fun q => h2 (q ▸ m1)
    simp only [wFlag, n1, n2, n3, n4, Bool.or_eq_true, beq_iff_eq, or_self, false_iff]
    rintro ⟨-, e, q⟩
    cases e <;> tauto

theorem fixed_inv {P P' : Params Q F} {d : Diag Q F} (h : Inv P d) (hA : AnnealTo P P') (hγ : d.hasGamma = 0)
    (hs : NoStaleWorm d) (hn : LinesNonzero (fixed P' d)) : Inv P' (fixed P' d) := by
  have hf := wFlag_eq h hs
  have f1 : ∀ w ∈ d.W.live, (fixed P' d).fl.wWorm w = wFlag d w := fun w hw => if_pos hw
  have f2 : ∀ w ∈ d.W.live, (fixed P' d).fl.wGam w = false := fun w hw => if_pos hw
  have f3 : ∀ g ∈ d.G.live, (fixed P' d).fl.gGam g = false := fun w hw => if_pos hw
  have f4 : ∀ g ∈ d.G.live, (fixed P' d).wt.gWt g = gNew P' d g := fun w hw => if_pos hw
  have f5 : ∀ w ∈ d.W.live, (fixed P' d).wt.wWt w = wNew P' d w := fun w hw => if_pos hw
  exact {
    count := by
      refine ⟨h.count.verWf, h.count.gWf, h.count.wWf, h.count.n_pos, ?_, h.count.ver, h.count.g, Or.inl rfl⟩
      exact h.count.n_le.trans hA.maxOrd
    topo := h.topo
    kcons := h.kcons
    ghash := h.ghash
    whash := h.whash
    spin := h.spin
    worm := by
      refine ⟨h.worm.ira_mem, h.worm.masha_mem, h.worm.ne, h.worm.masha_dir, h.worm.k_in, h.worm.dSpin,
        fun _ => rfl, fun w hw => ?_⟩
      rw [f1 w hw, hf w hw]
      exact h.worm.flag w hw
    meas := h.meas
    delta := by
      intro w hw q
      have := h.delta w hw q
      exact ⟨this.1, f2 w hw⟩
    gamma := by
      have hγ' : (fixed P' d).hasGamma = 0 := hγ
      refine ⟨h.gamma.le, fun g q => ?_, fun w q => ?_, fun q => ?_, fun q => ?_, fun g q c => ?_, fun w q c => ?_⟩
      · rw [f3 g q, hγ']; simp
      · rw [f2 w q, hγ']; simp
      · omega
      · omega
      · rw [f3 g q] at c; simp at c
      · rw [f2 w q] at c; simp at c
    dom := by
      intro v hv
      obtain ⟨⟨a1, a2, a3, a4, a5, a6⟩, b1, b2⟩ := h.dom v hv
      refine ⟨⟨a1, ?_, a3, ?_, a5, ?_⟩, b1, lt_of_lt_of_le b2 hA.beta⟩
      · rw [hA.lx]; exact a2
      · rw [hA.ly]; exact a4
      · rw [hA.nsub]; exact a6
    ext := fun q => absurd hγ q
    line := by
      refine ⟨fun g q => ?_, fun w q => ?_, hn.1, hn.2⟩
      · rw [f4 g q, gExpected, f3 g q]; rfl
      · rw [f5 w q, wExpected, f2 w q, f1 w q]; rfl
    weight := by
      have ho' : (fixed P' d).order ≠ 0 := by
        have := h.count.n_pos
        change d.W.avail ≠ 0
        omega
      rw [if_neg ho']
      simp only [fixed, totalWeight]
      congr 2
      · exact Finset.prod_congr rfl fun g q => by rw [if_pos q]
      · exact Finset.prod_congr rfl fun g q => by rw [if_pos q]
    phase := rfl
    sign := h.sign }

/-- Unchanged tables: nothing changes but the cached worm weight (always one). -/
theorem fixed_self {P : Params Q F} {d : Diag Q F} (h : Inv P d) (hγ : d.hasGamma = 0)
    (ho : d.order ≠ 0) (hs : NoStaleWorm d) : fixed P d = { d with worm := { d.worm with wt := 1 } } := by
  have hg := h.gGam_false hγ
  have hw := h.wGam_false hγ
  have hf := wFlag_eq h hs
  have n1 : ∀ g ∈ d.G.live, gNew P d g = d.wt.gWt g := fun g q => by
    rw [h.line.g_eq g q, gExpected, hg g q]; rfl
  have n2 : ∀ w ∈ d.W.live, wNew P d w = d.wt.wWt w := fun w q => by
    rw [h.line.w_eq w q, wExpected, hw w q, ← hf w q]; rfl
  have e1 : (fun g => if g ∈ d.G.live then false else d.fl.gGam g) = d.fl.gGam := by
    funext g; split_ifs with c
    · exact (hg g c).symm
    · rfl
  have e2 : (fun w => if w ∈ d.W.live then wFlag d w else d.fl.wWorm w) = d.fl.wWorm := by
    funext w; split_ifs with c
    · exact hf w c
    · rfl
  have e3 : (fun w => if w ∈ d.W.live then false else d.fl.wGam w) = d.fl.wGam := by
    funext w; split_ifs with c
    · exact (hw w c).symm
    · rfl
  have e4 : (fun g => if g ∈ d.G.live then gNew P d g else d.wt.gWt g) = d.wt.gWt := by
    funext g; split_ifs with c
    · exact n1 g c
    · rfl
  have e5 : (fun w => if w ∈ d.W.live then wNew P d w else d.wt.wWt w) = d.wt.wWt := by
    funext w; split_ifs with c
    · exact n2 w c
    · rfl
  have e6 : (∏ g ∈ d.G.live, gNew P d g) * (∏ w ∈ d.W.live, wNew P d w) * ((d.sfl : F) * (-1) ^ d.W.avail)
      = d.weight := by
    rw [h.weight, if_neg ho, totalWeight, Finset.prod_congr rfl n1, Finset.prod_congr rfl n2]
  have e7 : d.W.avail = d.order := by
    rcases h.count.order with q | q
    · exact q.symm
    · exact absurd q.1 ho
  unfold fixed
  dsimp only
  rw [e1, e2, e3, e4, e5, e6, e7, ← h.phase]
end
end Feyn
