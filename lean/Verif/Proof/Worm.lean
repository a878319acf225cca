import Verif.Proof.Basic

/-! # Worm creation, deletion and moves preserve consistency -/

set_option linter.unusedSectionVars false
set_option linter.unusedSimpArgs false

namespace Feyn
variable {Q F : Type} [Field Q] [LinearOrder Q] [IsStrictOrderedRing Q] [Field F]

/-- A call that returns normally in a consistent state, and leaves the diagram alone unless accepted. -/
def Good (P : Params Q F) (d : Diag Q F) (r : Res (Out Q F)) : Prop :=
  ∃ out, r = .ok out ∧ Inv P out.d ∧ (out.tag ≠ .accept → out.d = d)

theorem good_skip {P : Params Q F} {d : Diag Q F} (h : Inv P d) : Good P d (skip d) :=
  ⟨_, rfl, h, fun _ => rfl⟩

theorem good_metropolis {P : Params Q F} {d : Diag Q F} {prob u : Q} {acc : Res (Diag Q F)}
    (h : Inv P d) (ho : d.order < MAX_ORDER)
    (ha : (1 ≤ prob ∨ u < prob) → ∃ d', acc = .ok d' ∧ Inv P d') :
    Good P d (metropolis d d prob u acc) := by
  unfold metropolis
  rw [if_pos ho]
  by_cases hp : 1 ≤ prob ∨ u < prob
  · obtain ⟨d', e, hd⟩ := ha hp
    rw [if_pos hp, e]
    exact ⟨_, rfl, hd, fun h => absurd rfl h⟩
  · rw [if_neg hp]
    exact ⟨_, rfl, h, fun _ => rfl⟩

theorem Inv.order_lt {P : Params Q F} (hP : P.Wf) {d : Diag Q F} (h : Inv P d) : d.order < MAX_ORDER := by
  have h1 := h.count.order
  have h2 := h.count.n_le
  have h3 := hP.lt_max
  omega

theorem Inv.sfl_ne {P : Params Q F} {d : Diag Q F} (h : Inv P d) : (d.sfl : F) ≠ 0 := by
  obtain ⟨σ, -, e⟩ := h.sign
  rcases Int.units_eq_one_or (Equiv.Perm.sign σ) with h1 | h1 <;> rw [e, h1] <;> simp

theorem Inv.total_ne {P : Params Q F} {d : Diag Q F} (h : Inv P d) :
    totalWeight d.G.live d.W.live d.wt d.sfl d.W.avail ≠ 0 := by
  unfold totalWeight
  refine mul_ne_zero (mul_ne_zero ?_ ?_) (mul_ne_zero h.sfl_ne ?_)
  · exact Finset.prod_ne_zero_iff.2 h.line.g_ne
  · exact Finset.prod_ne_zero_iff.2 h.line.w_ne
  · exact pow_ne_zero _ (by simp)

theorem Inv.order_eq {P : Params Q F} {d : Diag Q F} (h : Inv P d) (ho : d.order ≠ 0) :
    d.order = d.W.avail := by
  have := h.count.order; omega

theorem count_same {P : Params Q F} {d d' : Diag Q F} (h : Inv P d) (ho : d.order ≠ 0) (hV : d'.Ver = d.Ver)
    (hG : d'.G = d.G) (hW : d'.W = d.W) (hO : d'.order = d.order) : CountOk P d' := by
  have c := h.count
  refine ⟨?_, ?_, ?_, ?_, ?_, ?_, ?_, Or.inl ?_⟩
  · rw [hV]; exact c.verWf
  · rw [hG]; exact c.gWf
  · rw [hW]; exact c.wWf
  · rw [hW]; exact c.n_pos
  · rw [hW]; exact c.n_le
  · rw [hV, hW]; exact c.ver
  · rw [hG, hW]; exact c.g
  · rw [hO, hW]; exact h.order_eq ho

theorem TopoOk.wV_inj {V G W : Finset ℕ} {s : Shape} (h : TopoOk V G W s) {w w' : ℕ} (hw : w ∈ W)
    (hw' : w' ∈ W) {e e' : Dir} (he : s.wV w e = s.wV w' e') : w = w' ∧ e = e' := by
  have h1 := h.vW_wV w hw e
  have h2 := h.vW_wV w' hw' e'
  have h3 := h.vDir_wV w hw e
  have h4 := h.vDir_wV w' hw' e'
  rw [he] at h1 h3
  exact ⟨h1.symm.trans h2, h3.symm.trans h4⟩

theorem TopoOk.wV_ne {V G W : Finset ℕ} {s : Shape} (h : TopoOk V G W s) {w : ℕ} (hw : w ∈ W) :
    s.wV w IN ≠ s.wV w OUT := fun e => by have := (h.wV_inj hw hw e).2; cases this

theorem createWormCore_good {P : Params Q F} (hP : P.Wf) {d : Diag Q F} (h : Inv P d)
    (ho : d.order ≠ 0) (hw : d.worm.exist = false) {w : ℕ} (hwm : w ∈ d.W.live) {kWorm dspin : ℤ}
    (hk : InK kWorm) (hs : dspin = 1 ∨ dspin = -1) {u : Q} (hu : 0 ≤ u) :
    Good P d (createWormCore P d w kWorm dspin u) := by
  have hin := h.topo.wV_mem w hwm IN
  have hout := h.topo.wV_mem w hwm OUT
  have hkW : InK (subK (d.mo.wK w) kWorm) := subK_in (h.whash.mem w hwm) hk
  obtain ⟨occ, eocc, hocc⟩ := wHashCheck_spec d.mo.wHash hkW
  unfold createWormCore
  simp only [deref_live hwm, deref_live hin, deref_live hout, Res.ok_bind, eocc]
  generalize hX : wW0 P d.ext (d.co.r (d.sh.wV w IN)) _ _ _ _ _ true _ _ _ = X
  split_ifs with c1 c2
  · exact good_skip h
  · exact good_skip h
  obtain ⟨hk0, hkf⟩ := hocc (by simpa using c1)
  refine good_metropolis h (h.order_lt hP) fun hacc => ?_
  have hr := ratio_ne_zero hu hacc
  obtain ⟨wh, ewh, hwh⟩ := replaceWHash_ok h.whash hwm hkW hk0 hkf
  have hdir0 := h.topo.vDir_wV w hwm IN
  have hdir1 := h.topo.vDir_wV w hwm OUT
  have hne := h.topo.wV_ne hwm
  have hno : ∀ w' ∈ d.W.live, d.fl.wWorm w' = false := by
    intro w' hw'
    have := (h.worm.flag w' hw')
    rw [hw] at this
    simpa using this
  have hw0 := h.line.w_ne w hwm
  rw [ewh]
  refine ⟨_, rfl, ?_⟩
  have hweight := h.weight
  rw [if_neg ho] at hweight
  exact {
    count := count_same h ho rfl rfl rfl rfl
    topo := h.topo
    kcons := by
      intro v hv
      have hc := h.kcons v hv
      have hd := subK_dvd (d.mo.wK w) kWorm
      have hv1 := h.topo.wV_vW v hv
      unfold KConserved at hc ⊢
      simp only [hw, upd_apply] at hc ⊢
      by_cases e : d.sh.vW v = w
      · rw [e] at hv1 hc ⊢
        rcases hvd : d.sh.vDir v <;> rw [hvd] at hv1 hc <;> subst hv1
        · simp [hne] at hc ⊢; omega
        · simp [hne.symm] at hc ⊢; omega
      · have e1 : v ≠ d.sh.wV w IN := by rintro rfl; exact e (h.topo.vW_wV w hwm IN)
        have e2 : v ≠ d.sh.wV w OUT := by rintro rfl; exact e (h.topo.vW_wV w hwm OUT)
        simpa [e, e1, e2] using hc
    ghash := h.ghash
    whash := hwh
    spin := h.spin
    worm := {
      ira_mem := fun _ => hin
      masha_mem := fun _ => hout
      ne := fun _ => hne
      masha_dir := fun _ => hdir1
      k_in := fun _ => hk
      dSpin := fun _ => hs
      wt := fun _ => rfl
      flag := by
        intro w' hw'
        simp only [upd_apply]
        by_cases e : w' = w
        · simp only [e, if_true, true_and, true_iff]; exact ⟨IN, Or.inl rfl⟩
        · simp only [e, if_false, hno w' hw', true_and]
          constructor
          · intro hf; cases hf
          · rintro ⟨x, hx | hx⟩
            · exact absurd (h.topo.wV_inj hw' hwm hx).1 e
            · exact absurd (h.topo.wV_inj hw' hwm hx).1 e }
    meas := h.meas
    delta := h.delta
    gamma := h.gamma
    dom := h.dom
    ext := h.ext
    line := {
      g_eq := h.line.g_eq
      g_ne := h.line.g_ne
      w_eq := by
        intro w' hw'
        by_cases e : w' = w
        · subst e; simp [wExpected, hX]
        · have := h.line.w_eq w' hw'
          simp only [wExpected, upd_ne _ _ e] at this ⊢
          exact this
      w_ne := by
        intro w' hw'
        by_cases e : w' = w
        · subst e; simp only [upd_same]; intro h0; exact hr (by rw [h0]; simp)
        · simp only [upd_ne _ _ e]; exact h.line.w_ne w' hw' }
    weight := by
      simp only [if_neg ho]
      rw [total_updW hwm hw0, hweight]
    phase := by simp only [h.phase, map_mul]
    sign := h.sign }

theorem deleteWormCore_good {P : Params Q F} (hP : P.Wf) {d : Diag Q F} (h : Inv P d)
    (ho : d.order ≠ 0) (hw : d.worm.exist = true) {u : Q} (hu : 0 ≤ u) :
    Good P d (deleteWormCore P d u) := by
  have hI := h.worm.ira_mem hw
  have hM := h.worm.masha_mem hw
  have hwm := h.topo.vW_mem _ hI
  unfold deleteWormCore
  simp only [deref_live hI, deref_live hM, deref_live hwm, Res.ok_bind]
  split_ifs with c0
  · exact good_skip h
  have c0 : d.sh.vW d.worm.ira = d.sh.vW d.worm.masha := by simpa using c0
  have hkW : InK (addK (d.mo.wK (d.sh.vW d.worm.ira)) (mulK (sgn (d.sh.vDir d.worm.ira)) d.worm.k)) :=
    addK_in (h.whash.mem _ hwm) (mulK_sgn_in _ (h.worm.k_in hw))
  obtain ⟨occ, eocc, hocc⟩ := wHashCheck_spec d.mo.wHash hkW
  simp only [eocc, Res.ok_bind]
  split_ifs with c1
  · exact good_skip h
  obtain ⟨hk0, hkf⟩ := hocc (by simpa using c1)
  have hdM := h.worm.masha_dir hw
  have hne := h.worm.ne hw
  have eI := h.topo.wV_vW _ hI
  have eM := h.topo.wV_vW _ hM
  rw [← c0, hdM] at eM
  have hdI : d.sh.vDir d.worm.ira = IN := by
    rcases hd : d.sh.vDir d.worm.ira
    · rfl
    · rw [hd] at eI; exact absurd (eI.symm.trans eM) hne
  rw [hdI] at eI hk0 hkf hkW ⊢
  generalize hwn : d.sh.vW d.worm.ira = w at *
  have hdm : d.fl.wDelta w = true → d.fl.wMeas w = false := fun e => (h.delta w hwm e).1
  rw [wW_eq _ _ _ _ _ _ _ _ _ _ _ _ _ hdm, if_pos rfl]
  generalize hX : wW0 P d.ext (d.co.r d.worm.ira) _ _ _ _ _ false _ _ _ = X
  refine good_metropolis h (h.order_lt hP) fun hacc => ?_
  have hr := ratio_ne_zero hu hacc
  obtain ⟨wh, ewh, hwh⟩ := replaceWHash_ok h.whash hwm hkW hk0 hkf
  have hw0 := h.line.w_ne w hwm
  rw [ewh]
  refine ⟨_, rfl, ?_⟩
  have hweight := h.weight
  rw [if_neg ho] at hweight
  exact {
    count := count_same h ho rfl rfl rfl rfl
    topo := h.topo
    kcons := by
      intro v hv
      have hc := h.kcons v hv
      have hd1 := addK_dvd (d.mo.wK w) (mulK (sgn IN) d.worm.k)
      have hd2 := mulK_dvd (sgn IN) d.worm.k
      have hv1 := h.topo.wV_vW v hv
      unfold KConserved at hc ⊢
      simp only [hw, upd_apply] at hc ⊢
      by_cases e : d.sh.vW v = w
      · rw [e] at hv1 hc ⊢
        rcases hvd : d.sh.vDir v <;> rw [hvd] at hv1 hc
        · rw [eI] at hv1; subst hv1
          simp [hne] at hc hd1 hd2 ⊢; omega
        · rw [eM] at hv1; subst hv1
          simp [hne.symm] at hc hd1 hd2 ⊢; omega
      · have e1 : v ≠ d.worm.ira := by rintro rfl; exact e hwn
        have e2 : v ≠ d.worm.masha := by rintro rfl; exact e c0.symm
        simpa [e, e1, e2] using hc
    ghash := h.ghash
    whash := hwh
    spin := h.spin
    worm := {
      ira_mem := fun e => by cases e
      masha_mem := fun e => by cases e
      ne := fun e => by cases e
      masha_dir := fun e => by cases e
      k_in := fun e => by cases e
      dSpin := fun e => by cases e
      wt := fun e => by cases e
      flag := by
        intro w' hw'
        simp only [upd_apply]
        by_cases e : w' = w
        · simp [e]
        · have hf := h.worm.flag w' hw'
          simp only [e, if_false, Bool.false_eq_true, false_and, iff_false]
          rw [hf]
          rintro ⟨-, x, hx | hx⟩
          · exact e ((h.topo.vW_wV w' hw' x).symm.trans (by rw [hx]; exact hwn))
          · exact e ((h.topo.vW_wV w' hw' x).symm.trans (by rw [hx]; exact c0.symm)) }
    meas := h.meas
    delta := h.delta
    gamma := h.gamma
    dom := h.dom
    ext := h.ext
    line := {
      g_eq := h.line.g_eq
      g_ne := h.line.g_ne
      w_eq := by
        intro w' hw'
        by_cases e : w' = w
        · subst e; simp [wExpected, eI, eM, hX]
        · have := h.line.w_eq w' hw'
          simp only [wExpected, upd_ne _ _ e] at this ⊢
          exact this
      w_ne := by
        intro w' hw'
        by_cases e : w' = w
        · subst e; simp only [upd_same]; intro h0; exact hr (by rw [h0]; simp)
        · simp only [upd_ne _ _ e]; exact h.line.w_ne w' hw' }
    weight := by
      simp only [if_neg ho]
      rw [total_updW hwm hw0, hweight]
    phase := by simp only [h.phase, map_mul]
    sign := h.sign }

theorem moveWormWCore_good {P : Params Q F} (hP : P.Wf) {d : Diag Q F} (h : Inv P d)
    (ho : d.order ≠ 0) (hw : d.worm.exist = true) {u : Q} (hu : 0 ≤ u) :
    Good P d (moveWormWCore P d u) := by
  have hI := h.worm.ira_mem hw
  have hM := h.worm.masha_mem hw
  have hwm := h.topo.vW_mem _ hI
  have hv2 := h.topo.wV_mem _ hwm (!d.sh.vDir d.worm.ira)
  unfold moveWormWCore
  simp only [deref_live hI, deref_live hM, deref_live hwm, deref_live hv2, Res.ok_bind]
  split_ifs with c0
  · exact good_skip h
  have hkW : InK (addK (d.mo.wK (d.sh.vW d.worm.ira)) (mulK (sgn (d.sh.vDir d.worm.ira)) d.worm.k)) :=
    addK_in (h.whash.mem _ hwm) (mulK_sgn_in _ (h.worm.k_in hw))
  obtain ⟨occ, eocc, hocc⟩ := wHashCheck_spec d.mo.wHash hkW
  simp only [eocc, Res.ok_bind]
  split_ifs with c1
  · exact good_skip h
  obtain ⟨hk0, hkf⟩ := hocc (by simpa using c1)
  have hdM := h.worm.masha_dir hw
  have eI := h.topo.wV_vW _ hI
  have hdm : d.fl.wDelta (d.sh.vW d.worm.ira) = true → d.fl.wMeas (d.sh.vW d.worm.ira) = false :=
    fun e => (h.delta _ hwm e).1
  rw [wW_line h.topo hI P d.ext d.co.r d.co.tau d.co.spin _ _ _ _ hdm]
  have hdv2 := h.topo.vDir_wV _ hwm (!d.sh.vDir d.worm.ira)
  have hwv2 := h.topo.vW_wV _ hwm (!d.sh.vDir d.worm.ira)
  generalize hwn : d.sh.vW d.worm.ira = w at *
  generalize hvn : d.sh.wV w (!d.sh.vDir d.worm.ira) = v2 at *
  push Not at c0
  obtain ⟨c0, c0'⟩ := c0
  generalize hX : wW0 P d.ext _ _ _ _ _ _ _ _ _ _ = X
  refine good_metropolis h (h.order_lt hP) fun hacc => ?_
  have hr := ratio_ne_zero hu hacc
  obtain ⟨wh, ewh, hwh⟩ := replaceWHash_ok h.whash hwm hkW hk0 hkf
  have hw0 := h.line.w_ne w hwm
  rw [ewh]
  refine ⟨_, rfl, ?_⟩
  have hweight := h.weight
  rw [if_neg ho] at hweight
  exact {
    count := count_same h ho rfl rfl rfl rfl
    topo := h.topo
    kcons := by
      intro v hv
      have hc := h.kcons v hv
      have hd1 := addK_dvd (d.mo.wK w) (mulK (sgn (d.sh.vDir d.worm.ira)) d.worm.k)
      have hd2 := mulK_dvd (sgn (d.sh.vDir d.worm.ira)) d.worm.k
      have hv1 := h.topo.wV_vW v hv
      unfold KConserved at hc ⊢
      simp only [hw, upd_apply, true_and] at hc ⊢
      by_cases e : d.sh.vW v = w
      · rw [e] at hv1 hc ⊢
        simp only [if_true]
        by_cases e1 : v = d.worm.ira
        · subst e1
          simp only [c0.symm, if_true, if_false] at hc ⊢
          rcases hvd : d.sh.vDir d.worm.ira <;> rw [hvd] at hc hd1 hd2 <;> simp at hc hd1 hd2 ⊢ <;> omega
        · have e2 : v = v2 := by
            rw [← hv1, ← hvn]; congr 1
            by_contra hne
            apply e1; rw [← hv1, ← eI]; congr 1
            revert hne; cases d.sh.vDir v <;> cases d.sh.vDir d.worm.ira <;> simp
          subst e2
          simp only [e1, c0', if_true, if_false] at hc ⊢
          rw [hdv2] at hc ⊢
          rcases hvd : d.sh.vDir d.worm.ira <;> rw [hvd] at hc hd1 hd2 <;> simp at hc hd1 hd2 ⊢ <;> omega
      · have e1 : v ≠ d.worm.ira := by rintro rfl; exact e hwn
        have e2 : v ≠ v2 := by rintro rfl; exact e hwv2
        simpa [e, e1, e2] using hc
    ghash := h.ghash
    whash := hwh
    spin := h.spin
    worm := {
      ira_mem := fun _ => hv2
      masha_mem := h.worm.masha_mem
      ne := fun _ => c0'
      masha_dir := h.worm.masha_dir
      k_in := h.worm.k_in
      dSpin := h.worm.dSpin
      wt := fun _ => rfl
      flag := by
        intro w' hw'
        rw [h.worm.flag w' hw']
        refine and_congr_right fun _ => ?_
        by_cases e : w' = w
        · subst e
          constructor
          · intro _; exact ⟨!d.sh.vDir d.worm.ira, Or.inl hvn⟩
          · intro _; exact ⟨d.sh.vDir d.worm.ira, Or.inl eI⟩
        · constructor
          · rintro ⟨x, hx | hx⟩
            · exact absurd ((h.topo.vW_wV w' hw' x).symm.trans (by rw [hx]; exact hwn)) e
            · exact ⟨x, Or.inr hx⟩
          · rintro ⟨x, hx | hx⟩
            · exact absurd ((h.topo.vW_wV w' hw' x).symm.trans (by rw [hx]; exact hwv2)) e
            · exact ⟨x, Or.inr hx⟩ }
    meas := h.meas
    delta := h.delta
    gamma := h.gamma
    dom := h.dom
    ext := h.ext
    line := {
      g_eq := h.line.g_eq
      g_ne := h.line.g_ne
      w_eq := by
        intro w' hw'
        by_cases e : w' = w
        · subst e; simp [wExpected, hX]
        · have := h.line.w_eq w' hw'
          simp only [wExpected, upd_ne _ _ e] at this ⊢
          exact this
      w_ne := by
        intro w' hw'
        by_cases e : w' = w
        · subst e; simp only [upd_same]; intro h0; exact hr (by rw [h0]; simp)
        · simp only [upd_ne _ _ e]; exact h.line.w_ne w' hw' }
    weight := by
      simp only [if_neg ho]
      rw [total_updW hwm hw0, hweight]
    phase := by simp only [h.phase, map_mul]
    sign := h.sign }

end Feyn
