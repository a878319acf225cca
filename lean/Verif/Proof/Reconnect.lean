import Verif.Proof.Order0

/-! # Reconnecting two fermion lines preserves consistency -/

set_option linter.unusedSectionVars false
set_option linter.unusedSimpArgs false

namespace Feyn
variable {Q F : Type} [Field Q] [LinearOrder Q] [IsStrictOrderedRing Q] [Field F]

theorem reconnect_topo {V G W : Finset ℕ} {s : Shape} (h : TopoOk V G W s) {i m : ℕ} (hi : i ∈ V) (hm : m ∈ V)
    (hne : i ≠ m) (dir : Dir) :
    TopoOk V G W { s with
        vG := upd2 (upd2 s.vG m dir (s.vG i dir)) i dir (s.vG m dir)
        gV := upd2 (upd2 s.gV (s.vG i dir) (!dir) m) (s.vG m dir) (!dir) i } := by
  have e1 := h.gV_vG i hi dir
  have e2 := h.gV_vG m hm dir
  have hg1 := h.vG_mem i hi dir
  have hg2 := h.vG_mem m hm dir
  have hgne : s.vG i dir ≠ s.vG m dir := by
    intro e; rw [e] at e1; exact hne (e1.symm.trans e2)
  have gV_mem := h.gV_mem
  have vG_gV := h.vG_gV
  have vG_mem := h.vG_mem
  have gV_vG := h.gV_vG
  constructor
  · intro g hg e; simp only [upd2_apply]; grind
  · intro g hg e; simp only [upd2_apply]; cases dir <;> cases e <;> simp at * <;> grind
  · intro v hv e; simp only [upd2_apply]; grind
  · intro v hv e; simp only [upd2_apply]; cases dir <;> cases e <;> simp at * <;> grind
  · exact h.wV_mem
  · exact h.vW_wV
  · exact h.vDir_wV
  · exact h.vW_mem
  · exact h.wV_vW

theorem TopoOk.gV_ne_of_ne {V G W : Finset ℕ} {s : Shape} (h : TopoOk V G W s) {i m : ℕ} (hi : i ∈ V)
    (hm : m ∈ V) (hne : i ≠ m) (dir : Dir) : s.vG i dir ≠ s.vG m dir := by
  have e1 := h.gV_vG i hi dir
  have e2 := h.gV_vG m hm dir
  intro e; rw [e] at e1; exact hne (e1.symm.trans e2)

/-- Exchanging the ends of two fermion lines changes the sign of the loop permutation. -/
theorem reconnect_sign {V G W : Finset ℕ} {s : Shape} (h : TopoOk V G W s) (hlt : ∀ v ∈ V, v < MAX_BUNDLE)
    {i m : ℕ} (hi : i ∈ V) (hm : m ∈ V)
    (hne : i ≠ m) (dir : Dir) {sfl : ℤ} (hs : SignOk V s sfl) :
    SignOk V { s with
        vG := upd2 (upd2 s.vG m dir (s.vG i dir)) i dir (s.vG m dir)
        gV := upd2 (upd2 s.gV (s.vG i dir) (!dir) m) (s.vG m dir) (!dir) i } (sfl * (-1)) := by
  obtain ⟨σ, hσ, hsgn⟩ := hs
  have e1 := h.gV_vG i hi dir
  have e2 := h.gV_vG m hm dir
  have hgne := h.gV_ne_of_ne hi hm hne dir
  have li := hlt i hi
  have lm := hlt m hm
  have hne' : (⟨i, li⟩ : Fin 20) ≠ ⟨m, lm⟩ := fun e => hne (congrArg Fin.val e)
  have hmi : ∀ x : Fin 20, x.val ∈ V → x = ⟨i, li⟩ ∨ x = ⟨m, lm⟩ ∨ (x.val ≠ i ∧ x.val ≠ m) := by
    intro x _
    by_cases c1 : x.val = i
    · left; exact Fin.ext c1
    by_cases c2 : x.val = m
    · right; left; exact Fin.ext c2
    exact Or.inr (Or.inr ⟨c1, c2⟩)
  cases dir with
  | true =>
    refine ⟨σ * Equiv.swap ⟨i, li⟩ ⟨m, lm⟩, ?_, ?_⟩
    · intro x
      refine ⟨fun hx => ?_, fun hx => ?_⟩
      · rcases hmi x hx with rfl | rfl | ⟨n1, n2⟩
        · rw [Equiv.Perm.mul_apply, Equiv.swap_apply_left, (hσ ⟨m, lm⟩).1 hm]
          simp [nextVertex, upd2_apply]
        · rw [Equiv.Perm.mul_apply, Equiv.swap_apply_right, (hσ ⟨i, li⟩).1 hi]
          simp [nextVertex, upd2_apply, hne.symm, hgne]
        · rw [Equiv.Perm.mul_apply, Equiv.swap_apply_of_ne_of_ne (fun e => n1 (congrArg Fin.val e))
            (fun e => n2 (congrArg Fin.val e)), (hσ x).1 hx]
          simp [nextVertex, upd2_apply, n1, n2]
      · rw [Equiv.Perm.mul_apply, Equiv.swap_apply_of_ne_of_ne (by rintro rfl; exact hx hi)
            (by rintro rfl; exact hx hm), (hσ x).2 hx]
    · rw [Equiv.Perm.sign_mul, Equiv.Perm.sign_swap hne', hsgn]; simp
  | false =>
    simp only [Bool.not_false] at e1 e2
    refine ⟨Equiv.swap ⟨i, li⟩ ⟨m, lm⟩ * σ, ?_, ?_⟩
    · intro x
      refine ⟨fun hx => ?_, fun hx => ?_⟩
      · have hx1 := (hσ x).1 hx
        have hgm := h.vG_mem _ hx OUT
        rw [Equiv.Perm.mul_apply]
        by_cases c1 : nextVertex s x = i
        · have : σ x = ⟨i, li⟩ := Fin.ext (hx1.trans c1)
          have hg : s.vG x.val OUT = s.vG i IN := by
            have := h.vG_gV _ hgm OUT
            unfold nextVertex at c1; rw [c1] at this; exact this.symm
          rw [this, Equiv.swap_apply_left]
          simp [nextVertex, upd2_apply, hg, hgne]
        · by_cases c2 : nextVertex s x = m
          · have : σ x = ⟨m, lm⟩ := Fin.ext (hx1.trans c2)
            have hg : s.vG x.val OUT = s.vG m IN := by
              have := h.vG_gV _ hgm OUT
              unfold nextVertex at c2; rw [c2] at this; exact this.symm
            rw [this, Equiv.swap_apply_right]
            simp [nextVertex, upd2_apply, hg, hgne]
          · have n1 : s.vG x.val OUT ≠ s.vG i IN := by
              intro e; apply c1; unfold nextVertex; rw [e, e1]
            have n2 : s.vG x.val OUT ≠ s.vG m IN := by
              intro e; apply c2; unfold nextVertex; rw [e, e2]
            rw [Equiv.swap_apply_of_ne_of_ne (fun e => c1 (by rw [← hx1, e]))
              (fun e => c2 (by rw [← hx1, e])), hx1]
            simp [nextVertex, upd2_apply, n1, n2]
      · rw [Equiv.Perm.mul_apply, (hσ x).2 hx, Equiv.swap_apply_of_ne_of_ne (by rintro rfl; exact hx hi)
            (by rintro rfl; exact hx hm)]
    · rw [Equiv.Perm.sign_mul, Equiv.Perm.sign_swap hne', hsgn]; simp

/-- Both ends of a fermion line carry the spin of the line. -/
theorem spin_end {G : Finset ℕ} {s : Shape} {spin : ℕ → Dir → Spin} (h : SpinOk G s spin) {g : ℕ} (hg : g ∈ G)
    (e : Dir) : spin (s.gV g e) (!e) = spin (s.gV g IN) OUT := by
  cases e
  · rfl
  · exact (h g hg).symm

theorem reconnectCore_good {P : Params Q F} (hP : P.Wf) {d : Diag Q F} (h : Inv P d)
    (ho : d.order ≠ 0) (hw : d.worm.exist = true) {dir : Dir} {u : Q} (hu : 0 ≤ u) :
    Good P d (reconnectCore P d dir u) := by
  have hI := h.worm.ira_mem hw
  have hM := h.worm.masha_mem hw
  have hne := h.worm.ne hw
  have hg1 := h.topo.vG_mem _ hI dir
  have hg2 := h.topo.vG_mem _ hM dir
  have hA := h.topo.gV_mem _ hg1 dir
  have hB := h.topo.gV_mem _ hg2 dir
  have hA0 := h.topo.gV_mem _ hg1 IN
  have hB0 := h.topo.gV_mem _ hg2 IN
  have hgne := h.topo.gV_ne_of_ne hI hM hne dir
  have e1 := h.topo.gV_vG _ hI dir
  have e2 := h.topo.gV_vG _ hM dir
  have s1 := spin_end h.spin hg1
  have s2 := spin_end h.spin hg2
  have htopo := reconnect_topo h.topo hI hM hne dir
  have hsign := reconnect_sign h.topo (fun v hv => Bundle.live_lt hv) hI hM hne dir h.sign
  unfold reconnectCore
  simp only [deref_live hI, deref_live hM, deref_live hg1, deref_live hg2, deref_live hA, deref_live hB,
    deref_live hA0, deref_live hB0, Res.ok_bind]
  split_ifs with c0
  · exact good_skip h
  have c0 : d.co.spin (d.sh.gV (d.sh.vG d.worm.ira dir) IN) OUT =
      d.co.spin (d.sh.gV (d.sh.vG d.worm.masha dir) IN) OUT := by simpa using c0
  set s' : Shape := { d.sh with
        vG := upd2 (upd2 d.sh.vG d.worm.masha dir (d.sh.vG d.worm.ira dir)) d.worm.ira dir
          (d.sh.vG d.worm.masha dir)
        gV := upd2 (upd2 d.sh.gV (d.sh.vG d.worm.ira dir) (!dir) d.worm.masha) (d.sh.vG d.worm.masha dir) (!dir)
          d.worm.ira } with hs'
  have f1 : s'.gV (d.sh.vG d.worm.ira dir) (!dir) = d.worm.masha := by simp [hs', upd2_apply, hgne]
  have f2 : s'.gV (d.sh.vG d.worm.ira dir) dir = d.sh.gV (d.sh.vG d.worm.ira dir) dir := by
    simp [hs', upd2_apply, hgne]
  have f3 : s'.gV (d.sh.vG d.worm.masha dir) (!dir) = d.worm.ira := by simp [hs', upd2_apply]
  have f4 : s'.gV (d.sh.vG d.worm.masha dir) dir = d.sh.gV (d.sh.vG d.worm.masha dir) dir := by
    simp [hs', upd2_apply]
  have f5 : ∀ g, g ≠ d.sh.vG d.worm.ira dir → g ≠ d.sh.vG d.worm.masha dir → s'.gV g = d.sh.gV g := by
    intro g n1 n2; funext e; simp [hs', upd2_apply, n1, n2]
  have hL1 := gW_line s' (d.sh.vG d.worm.ira dir) dir P d.ext d.co.r d.co.tau d.co.spin
    (d.fl.gMeas (d.sh.vG d.worm.ira dir)) (d.fl.gGam (d.sh.vG d.worm.ira dir))
  have hL2 := gW_line s' (d.sh.vG d.worm.masha dir) dir P d.ext d.co.r d.co.tau d.co.spin
    (d.fl.gMeas (d.sh.vG d.worm.masha dir)) (d.fl.gGam (d.sh.vG d.worm.masha dir))
  rw [f1, f2] at hL1
  rw [f3, f4] at hL2
  rw [hL1, hL2]
  clear hL1 hL2
  generalize hX1 : gW0 P d.ext (d.co.r (s'.gV (d.sh.vG d.worm.ira dir) IN)) _ _ _ _ _ _ _ = X1
  generalize hX2 : gW0 P d.ext (d.co.r (s'.gV (d.sh.vG d.worm.masha dir) IN)) _ _ _ _ _ _ _ = X2
  refine good_metropolis h (h.order_lt hP) fun hacc => ?_
  have hr : ((-1) * X1 * X2 / (d.wt.gWt (d.sh.vG d.worm.ira dir) * d.wt.gWt (d.sh.vG d.worm.masha dir)) : F) ≠ 0 :=
    ratio_ne_zero (P := P) (c := 1) hu (by rwa [mul_one])
  have hne1 : X1 ≠ 0 := by rintro rfl; simp at hr
  have hne2 : X2 ≠ 0 := by rintro rfl; simp at hr
  have h10 := h.line.g_ne _ hg1
  have h20 := h.line.g_ne _ hg2
  have hweight := h.weight
  rw [if_neg ho] at hweight
  refine ⟨_, rfl, ?_⟩
  exact {
    count := count_same h ho rfl rfl rfl rfl
    topo := htopo
    kcons := by
      intro v hv
      have hc := h.kcons v hv
      have hd1 := addK_dvd d.worm.k (mulK (sgn dir)
        (subK (d.mo.gK (d.sh.vG d.worm.masha dir)) (d.mo.gK (d.sh.vG d.worm.ira dir))))
      have hd2 := mulK_dvd (sgn dir)
        (subK (d.mo.gK (d.sh.vG d.worm.masha dir)) (d.mo.gK (d.sh.vG d.worm.ira dir)))
      have hd3 := subK_dvd (d.mo.gK (d.sh.vG d.worm.masha dir)) (d.mo.gK (d.sh.vG d.worm.ira dir))
      unfold KConserved at hc ⊢
      simp only [hw, true_and, hs', upd2_apply] at hc ⊢
      by_cases c1 : v = d.worm.ira
      · subst c1
        cases dir <;> simp [hne] at hc hd1 hd2 hd3 ⊢ <;> omega
      · by_cases c2 : v = d.worm.masha
        · subst c2
          cases dir <;> simp [hne.symm] at hc hd1 hd2 hd3 ⊢ <;> omega
        · simpa [c1, c2] using hc
    ghash := h.ghash
    whash := h.whash
    spin := by
      intro g hg
      show d.co.spin (s'.gV g IN) OUT = d.co.spin (s'.gV g OUT) IN
      by_cases c1 : g = d.sh.vG d.worm.ira dir
      · subst c1
        have t1 := s1 dir
        have t2 := s2 (!dir)
        rw [e2, Bool.not_not] at t2
        have key : d.co.spin (s'.gV (d.sh.vG d.worm.ira dir) dir) (!dir) =
            d.co.spin (s'.gV (d.sh.vG d.worm.ira dir) (!dir)) dir := by rw [f1, f2, t1, t2, c0]
        cases dir
        · exact key
        · exact key.symm
      · by_cases c2 : g = d.sh.vG d.worm.masha dir
        · subst c2
          have t1 := s1 (!dir)
          have t2 := s2 dir
          rw [e1, Bool.not_not] at t1
          have key : d.co.spin (s'.gV (d.sh.vG d.worm.masha dir) dir) (!dir) =
              d.co.spin (s'.gV (d.sh.vG d.worm.masha dir) (!dir)) dir := by rw [f3, f4, t1, t2, c0]
          cases dir
          · exact key
          · exact key.symm
        · rw [f5 g c1 c2]; exact h.spin g hg
    worm := {
      ira_mem := h.worm.ira_mem
      masha_mem := h.worm.masha_mem
      ne := h.worm.ne
      masha_dir := h.worm.masha_dir
      k_in := fun _ => addK_in (h.worm.k_in hw) (mulK_sgn_in _ (subK_in (h.ghash.mem _ hg2) (h.ghash.mem _ hg1)))
      dSpin := h.worm.dSpin
      wt := h.worm.wt
      flag := h.worm.flag }
    meas := h.meas
    delta := h.delta
    gamma := h.gamma
    dom := h.dom
    ext := h.ext
    line := {
      g_eq := by
        intro g hg
        simp only [upd_apply]
        by_cases c2 : g = d.sh.vG d.worm.masha dir
        · rw [if_pos c2]; subst c2; rw [← hX2]; rfl
        · by_cases c1 : g = d.sh.vG d.worm.ira dir
          · rw [if_neg c2, if_pos c1]; subst c1; rw [← hX1]; rfl
          · rw [if_neg c2, if_neg c1, h.line.g_eq g hg]
            show gExpected P d.sh d.co d.fl d.ext g = gExpected P s' d.co d.fl d.ext g
            simp only [gExpected, f5 g c1 c2]
      g_ne := by
        intro g' hg'
        simp only [upd_apply]; split_ifs
        · exact hne2
        · exact hne1
        · exact h.line.g_ne g' hg'
      w_eq := h.line.w_eq
      w_ne := h.line.w_ne }
    weight := by
      simp only [if_neg ho]
      have e' : upd d.wt.gWt (d.sh.vG d.worm.ira dir) X1 (d.sh.vG d.worm.masha dir) =
        d.wt.gWt (d.sh.vG d.worm.masha dir) := upd_ne _ _ hgne.symm
      have : ∀ wt, totalWeight d.G.live d.W.live wt (d.sfl * (-1)) d.W.avail =
        totalWeight d.G.live d.W.live wt d.sfl d.W.avail * (-1 : F) := by
        intro wt; unfold totalWeight; push_cast; ring
      rw [this, total_updG hg2 (by rw [e']; exact h20), total_updG hg1 h10, hweight, e']
      field_simp
    phase := by simp only [h.phase, map_mul]
    sign := hsign }

end Feyn
