import Verif.Proof.Meas

/-! # Jumps between order 0 and order 1 preserve consistency -/

set_option linter.unusedSectionVars false
set_option linter.unusedSimpArgs false

namespace Feyn
variable {Q F : Type} [Field Q] [LinearOrder Q] [IsStrictOrderedRing Q] [Field F]

/-- Without a worm no fermion line starts and ends at the same vertex. -/
theorem Inv.noTadpole {P : Params Q F} {d : Diag Q F} (h : Inv P d) (hw : d.worm.exist = false) {v : ℕ}
    (hv : v ∈ d.Ver.live) : d.sh.vG v IN ≠ d.sh.vG v OUT := by
  intro e
  have hc := h.kcons v hv
  have hwm := h.topo.vW_mem v hv
  have h1 := h.whash.mem _ hwm
  have h2 := h.whash.ne _ hwm
  unfold KConserved at hc
  unfold InK at h1
  simp only [hw, e] at hc
  cases hd : d.sh.vDir v <;> rw [hd] at hc <;> simp at hc <;> omega

theorem Inv.pair {P : Params Q F} {d : Diag Q F} (h : Inv P d) (hn : d.W.avail = 1) :
    d.Ver.slot 0 ∈ d.Ver.live ∧ d.Ver.slot 1 ∈ d.Ver.live ∧ d.Ver.slot 0 ≠ d.Ver.slot 1 ∧
      d.Ver.live = {d.Ver.slot 0, d.Ver.slot 1} ∧ d.Ver.get 0 = .ok (d.Ver.slot 0) ∧
      d.Ver.get 1 = .ok (d.Ver.slot 1) := by
  have c := h.count
  have hv := c.ver
  rw [hn] at hv
  have hv : d.Ver.avail = 2 := by omega
  refine ⟨Bundle.slot_mem_live c.verWf (by omega), Bundle.slot_mem_live c.verWf (by omega), ?_, ?_,
    Bundle.get_spec c.verWf (by omega), Bundle.get_spec c.verWf (by omega)⟩
  · intro e
    have := Bundle.slot_inj c.verWf (by omega) (by omega) e
    omega
  · rw [Bundle.live_eq_image c.verWf, hv]
    ext x; simp [Finset.mem_image, Finset.mem_range]
    constructor
    · rintro ⟨i, hi, rfl⟩
      have : i = 0 ∨ i = 1 := by omega
      rcases this with rfl | rfl <;> simp
    · rintro (rfl | rfl)
      · exact ⟨0, by omega, rfl⟩
      · exact ⟨1, by omega, rfl⟩

theorem toOrder0Core_good {P : Params Q F} (hP : P.Wf) {d : Diag Q F} (h : Inv P d)
    (ho : d.order = 1) (hw : d.worm.exist = false) (hγ : d.hasGamma = 0) {u : Q} :
    Good P d (toOrder0Core P d u) := by
  have hn : d.W.avail = 1 := by rw [← h.order_eq (by omega), ho]
  obtain ⟨h1, h2, -, -, g1, g2⟩ := h.pair hn
  obtain ⟨r0, er0⟩ := orderRW_ok hP (Nat.zero_le _)
  obtain ⟨r1, er1⟩ := orderRW_ok hP hP.one_le
  unfold toOrder0Core
  simp only [g1, g2, deref_live h1, deref_live h2, Res.ok_bind, er0, er1]
  split_ifs with c0
  · exact good_skip h
  refine good_metropolis h (h.order_lt hP) fun hacc => ?_
  have hweight := h.weight
  rw [if_neg (by omega)] at hweight
  have hw0 : d.weight ≠ 0 := by rw [hweight]; exact h.total_ne
  refine ⟨_, rfl, ?_⟩
  exact {
    count := ⟨h.count.verWf, h.count.gWf, h.count.wWf, h.count.n_pos, h.count.n_le, h.count.ver,
      h.count.g, Or.inr ⟨rfl, hn, hw, hγ⟩⟩
    topo := h.topo
    kcons := h.kcons
    ghash := h.ghash
    whash := h.whash
    spin := h.spin
    worm := h.worm
    meas := h.meas
    delta := h.delta
    gamma := h.gamma
    dom := h.dom
    ext := h.ext
    line := h.line
    weight := by simp
    phase := by
      simp only [h.phase, ← map_mul]
      congr 1
      field_simp
    sign := h.sign }

/-- Topology at order one without a worm: the two fermion lines join the two vertices crosswise. -/
theorem Inv.pairTopo {P : Params Q F} {d : Diag Q F} (h : Inv P d) (hn : d.W.avail = 1)
    (hw : d.worm.exist = false) {v1 v2 : ℕ} (hv1 : v1 ∈ d.Ver.live) (hv2 : v2 ∈ d.Ver.live) (hne : v1 ≠ v2)
    (hV : d.Ver.live = {v1, v2}) :
    d.sh.gV (d.sh.vG v1 OUT) OUT = v2 ∧ d.sh.gV (d.sh.vG v2 OUT) OUT = v1 ∧
      d.sh.vG v1 OUT ≠ d.sh.vG v2 OUT ∧ d.G.live = {d.sh.vG v1 OUT, d.sh.vG v2 OUT} ∧
      d.W.live = {d.sh.vW v1} ∧ d.sh.wV (d.sh.vW v1) (!d.sh.vDir v1) = v2 := by
  have nt : ∀ v ∈ d.Ver.live, d.sh.gV (d.sh.vG v OUT) OUT ≠ v := by
    intro v hv e
    apply h.noTadpole hw hv
    have := h.topo.vG_gV _ (h.topo.vG_mem v hv OUT) OUT
    rw [e] at this
    exact this
  have m1 := h.topo.gV_mem _ (h.topo.vG_mem v1 hv1 OUT) OUT
  have m2 := h.topo.gV_mem _ (h.topo.vG_mem v2 hv2 OUT) OUT
  have n1 := nt v1 hv1
  have n2 := nt v2 hv2
  have m3 := h.topo.wV_mem _ (h.topo.vW_mem v1 hv1) (!d.sh.vDir v1)
  have n3 := h.topo.far_ne hv1
  rw [hV] at m1 m2 m3
  simp only [Finset.mem_insert, Finset.mem_singleton] at m1 m2 m3
  have hg : d.sh.vG v1 OUT ≠ d.sh.vG v2 OUT := by
    intro e
    have e1 := h.topo.gV_vG v1 hv1 OUT
    have e2 := h.topo.gV_vG v2 hv2 OUT
    rw [e] at e1
    exact hne (e1.symm.trans e2)
  refine ⟨m1.resolve_left n1, m2.resolve_right n2, hg, ?_, ?_, m3.resolve_left n3⟩
  · ext g
    simp only [Finset.mem_insert, Finset.mem_singleton]
    constructor
    · intro hgm
      have := h.topo.gV_mem g hgm IN
      have e := h.topo.vG_gV g hgm IN
      simp only [Bool.not_false] at e
      rw [hV] at this
      simp only [Finset.mem_insert, Finset.mem_singleton] at this
      rcases this with t | t <;> rw [t] at e
      · exact Or.inl e.symm
      · exact Or.inr e.symm
    · rintro (rfl | rfl)
      · exact h.topo.vG_mem v1 hv1 OUT
      · exact h.topo.vG_mem v2 hv2 OUT
  · have hcard := Bundle.card_live h.count.wWf
    rw [hn] at hcard
    obtain ⟨w, hw⟩ := Finset.card_eq_one.1 hcard
    have := h.topo.vW_mem v1 hv1
    rw [hw] at this ⊢
    rw [Finset.mem_singleton.1 this]

/-- At order one without a worm there is one fermion loop, so the stored sign is `1`. -/
theorem Inv.sfl_one {P : Params Q F} {d : Diag Q F} (h : Inv P d) (hn : d.W.avail = 1)
    (hw : d.worm.exist = false) : d.sfl = 1 := by
  obtain ⟨hv1, hv2, hne, hV, -, -⟩ := h.pair hn
  obtain ⟨t1, t2, -, -, -, -⟩ := h.pairTopo hn hw hv1 hv2 hne hV
  obtain ⟨σ, hσ, hs⟩ := h.sign
  set v1 := d.Ver.slot 0
  set v2 := d.Ver.slot 1
  have l1 := Bundle.live_lt hv1
  have l2 := Bundle.live_lt hv2
  have e1 : σ ⟨v1, l1⟩ = ⟨v2, l2⟩ := by
    have := (hσ ⟨v1, l1⟩).1 hv1
    ext; rw [this]; exact t1
  have e2 : σ ⟨v2, l2⟩ = ⟨v1, l1⟩ := by
    have := (hσ ⟨v2, l2⟩).1 hv2
    ext; rw [this]; exact t2
  have hne' : (⟨v1, l1⟩ : Fin 20) ≠ ⟨v2, l2⟩ := by
    intro e; exact hne (congrArg Fin.val e)
  have : σ = Equiv.swap ⟨v1, l1⟩ ⟨v2, l2⟩ := by
    apply Equiv.ext
    intro x
    by_cases x1 : x = ⟨v1, l1⟩
    · rw [x1, e1, Equiv.swap_apply_left]
    by_cases x2 : x = ⟨v2, l2⟩
    · rw [x2, e2, Equiv.swap_apply_right]
    rw [Equiv.swap_apply_of_ne_of_ne x1 x2]
    apply (hσ x).2
    rw [hV]
    simp only [Finset.mem_insert, Finset.mem_singleton, not_or]
    exact ⟨fun e => x1 (Fin.ext e), fun e => x2 (Fin.ext e)⟩
  rw [hs, this, Equiv.Perm.sign_swap hne']
  rfl

theorem backToOrder1Core_good {P : Params Q F} (hP : P.Wf) {d : Diag Q F} (h : Inv P d)
    (ho : d.order = 0) {r : Site} (hr : SiteIn P r) {T1 T2 : Q} (hT1 : TauIn P T1) (hT2 : TauIn P T2)
    {s1 s2 : Spin} {u : Q} (hu : 0 ≤ u) :
    Good P d (backToOrder1Core P d r T1 T2 s1 s2 u) := by
  have hc := h.count.order
  have hpos := h.count.n_pos
  have ⟨_, hn, hw, hγ⟩ : d.order = 0 ∧ d.W.avail = 1 ∧ d.worm.exist = false ∧ d.hasGamma = 0 := by
    rcases hc with hc | hc
    · omega
    · exact hc
  obtain ⟨h1, h2, hne, hV, g1, g2⟩ := h.pair hn
  obtain ⟨t1, t2, hgne, hG, hW, hfar⟩ := h.pairTopo hn hw h1 h2 hne hV
  have hsfl := h.sfl_one hn hw
  obtain ⟨r0, er0⟩ := orderRW_ok hP (Nat.zero_le _)
  obtain ⟨r1, er1⟩ := orderRW_ok hP hP.one_le
  have hm1 := h.topo.vG_mem _ h1 OUT
  have hm2 := h.topo.vG_mem _ h2 OUT
  have hmw := h.topo.vW_mem _ h1
  have hgg := h.noGamG (by omega)
  have hwg := h.noGamW (by omega)
  have hnw := h.noWorm hw
  have hdm : d.fl.wDelta (d.sh.vW (d.Ver.slot 0)) = true → d.fl.wMeas (d.sh.vW (d.Ver.slot 0)) = false :=
    fun e => (h.delta _ hmw e).1
  have b1 : d.sh.gV (d.sh.vG (d.Ver.slot 0) OUT) IN = d.Ver.slot 0 := h.topo.gV_vG _ h1 OUT
  have b2 : d.sh.gV (d.sh.vG (d.Ver.slot 1) OUT) IN = d.Ver.slot 1 := h.topo.gV_vG _ h2 OUT
  unfold backToOrder1Core
  simp only [g1, g2, deref_live h1, deref_live h2, deref_live hm1, deref_live hm2, deref_live hmw,
    Res.ok_bind, er0, er1]
  set v1 := d.Ver.slot 0
  set v2 := d.Ver.slot 1
  set sp : ℕ → Dir → Spin := upd (upd d.co.spin v1 fun e => if e = true then s1 else s2) v2
    fun e => if e = true then s2 else s1 with hsp
  set rr : ℕ → Site := upd (upd d.co.r v1 r) v2 r with hrr
  set tt : ℕ → Q := upd (upd d.co.tau v1 T1) v2 T2 with htt
  have sp1 : sp v1 = fun e => if e = true then s1 else s2 := by rw [hsp, upd_ne _ _ hne, upd_same]
  have sp2 : sp v2 = fun e => if e = true then s2 else s1 := by rw [hsp, upd_same]
  have rr1 : rr v1 = r := by rw [hrr, upd_ne _ _ hne, upd_same]
  have rr2 : rr v2 = r := by rw [hrr, upd_same]
  have tt1 : tt v1 = T1 := by rw [htt, upd_ne _ _ hne, upd_same]
  have tt2 : tt v2 = T2 := by rw [htt, upd_same]
  have hL := wW_line h.topo h1 P d.ext rr tt sp false _ _ false hdm
  rw [hfar, rr1, rr2, tt1, tt2, sp1, sp2] at hL
  rw [hL]
  generalize hX : wW0 P d.ext _ _ _ _ _ _ _ _ _ _ = X
  generalize hX1 : gW0 P d.ext r r T1 T2 s1 s1 (d.fl.gMeas (d.sh.vG v1 true)) _ = X1
  generalize hX2 : gW0 P d.ext r r T2 T1 s2 s2 _ _ = X2
  refine good_metropolis h (h.order_lt hP) fun hacc => ?_
  have hratio := ratio_ne_zero hu hacc
  have hneW : X ≠ 0 := by rintro rfl; simp at hratio
  have hne1 : X1 ≠ 0 := by rintro rfl; simp at hratio
  have hne2 : X2 ≠ 0 := by rintro rfl; simp at hratio
  have hweight := h.weight
  rw [if_pos ho] at hweight
  refine ⟨_, rfl, ?_⟩
  exact {
    count := ⟨h.count.verWf, h.count.gWf, h.count.wWf, h.count.n_pos, h.count.n_le, h.count.ver,
      h.count.g, Or.inl hn.symm⟩
    topo := h.topo
    kcons := h.kcons
    ghash := h.ghash
    whash := h.whash
    spin := by
      intro g hg
      simp only at hg ⊢
      rw [hG] at hg
      simp only [Finset.mem_insert, Finset.mem_singleton] at hg
      rcases hg with rfl | rfl
      · rw [b1, t1, sp1, sp2]; simp
      · rw [b2, t2, sp1, sp2]; simp
    worm := h.worm
    meas := h.meas
    delta := h.delta
    gamma := h.gamma
    dom := by
      intro v hv
      simp only at hv ⊢
      rw [hV] at hv
      simp only [Finset.mem_insert, Finset.mem_singleton] at hv
      rcases hv with rfl | rfl
      · rw [rr1, tt1]; exact ⟨hr, hT1⟩
      · rw [rr2, tt2]; exact ⟨hr, hT2⟩
    ext := h.ext
    line := {
      g_eq := by
        intro g hg
        simp only at hg ⊢
        have hgam := hgg g hg
        rw [hG] at hg
        simp only [Finset.mem_insert, Finset.mem_singleton] at hg
        rcases hg with rfl | rfl
        · rw [upd_ne _ _ hgne, upd_same]
          simp only [gExpected, b1, t1, sp1, sp2, rr1, rr2, tt1, tt2, hgam, ← hX1]
          simp
        · rw [upd_same]
          simp only [gExpected, b2, t2, sp1, sp2, rr1, rr2, tt1, tt2, hgam, ← hX2]
          simp
      g_ne := by
        intro g hg
        simp only [upd_apply]; split_ifs
        · exact hne2
        · exact hne1
        · exact h.line.g_ne g hg
      w_eq := by
        intro w hwm
        simp only at hwm ⊢
        have hgam := hwg w hwm
        have hwo := hnw w hwm
        rw [hW, Finset.mem_singleton] at hwm
        subst hwm
        simp only [upd_same, wExpected, hgam, hwo, ← hX]
      w_ne := by
        intro w' hw'
        simp only [upd_apply]; split_ifs
        · exact hneW
        · exact h.line.w_ne w' hw' }
    weight := by
      simp only [one_ne_zero, if_false]
      unfold totalWeight
      rw [hG, hW, hsfl, hn, hweight]
      have hne := hP.norm_ne
      simp only [Finset.prod_pair hgne, Finset.prod_singleton, upd_same, upd_ne _ _ hgne]
      push_cast
      field_simp
    phase := by simp only [h.phase, map_mul]
    sign := h.sign }

end Feyn
