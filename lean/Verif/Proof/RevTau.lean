import Verif.Proof.RevBase

/-!
# Detailed balance: times, delta lines, measuring line
-/

set_option linter.unusedSectionVars false
set_option linter.unusedSimpArgs false

namespace Feyn

section
variable {Q F : Type} [Field Q] [LinearOrder Q] [IsStrictOrderedRing Q] [Field F]
variable {P : Params Q F} {d d' d'' : Diag Q F}

/-- No expected line weight vanishes. -/
def NonZero (P : Params Q F) (d : Diag Q F) : Prop :=
  (∀ g ∈ d.G.live, gExpected P d.sh d.co d.fl d.ext g ≠ 0) ∧ (∀ w ∈ d.W.live, wExpected P d.sh d.co d.fl d.ext w ≠ 0)

theorem SameCells.nonZero (s : SameCells d d') (h : Inv P d) (ho : d.order ≠ 0) : NonZero P d' := by
  refine ⟨fun g hg => ?_, fun w hw => ?_⟩
  · rw [s.g] at hg; exact s.parts.gExp_ne h ho hg
  · rw [s.w] at hw; exact s.parts.wExp_ne h ho hw

/-- The expected weights of the two fermion lines of `v` after moving `v` to the time `T`. -/
theorem tau_gexp (h : Inv P d) {v : ℕ} (hv : v ∈ d.Ver.live) (T : Q) (fl : Flags) (hfl : fl.gMeas = d.fl.gMeas)
    (hfl' : fl.gGam = d.fl.gGam) :
    (if d.sh.vG v IN = d.sh.vG v OUT then
      gW0 P d.ext (d.co.r (d.sh.gV (d.sh.vG v IN) IN)) (d.co.r v) T T (d.co.spin (d.sh.gV (d.sh.vG v IN) IN) OUT)
        (d.co.spin v IN) (d.fl.gMeas (d.sh.vG v IN)) (d.fl.gGam (d.sh.vG v IN))
      else gW0 P d.ext (d.co.r (d.sh.gV (d.sh.vG v IN) IN)) (d.co.r v) (d.co.tau (d.sh.gV (d.sh.vG v IN) IN)) T
        (d.co.spin (d.sh.gV (d.sh.vG v IN) IN) OUT) (d.co.spin v IN) (d.fl.gMeas (d.sh.vG v IN))
        (d.fl.gGam (d.sh.vG v IN))) =
      gExpected P d.sh { d.co with tau := upd d.co.tau v T } fl d.ext (d.sh.vG v IN) ∧
    (d.sh.vG v IN ≠ d.sh.vG v OUT →
      gW0 P d.ext (d.co.r v) (d.co.r (d.sh.gV (d.sh.vG v OUT) OUT)) T (d.co.tau (d.sh.gV (d.sh.vG v OUT) OUT))
      (d.co.spin v OUT) (d.co.spin (d.sh.gV (d.sh.vG v OUT) OUT) IN) (d.fl.gMeas (d.sh.vG v OUT))
      (d.fl.gGam (d.sh.vG v OUT)) =
      gExpected P d.sh { d.co with tau := upd d.co.tau v T } fl d.ext (d.sh.vG v OUT)) := by
  have hmi := h.topo.vG_mem v hv IN
  have hmo := h.topo.vG_mem v hv OUT
  have ei : d.sh.gV (d.sh.vG v IN) OUT = v := h.topo.gV_vG v hv IN
  have eo : d.sh.gV (d.sh.vG v OUT) IN = v := h.topo.gV_vG v hv OUT
  by_cases c : d.sh.vG v IN = d.sh.vG v OUT
  · refine ⟨?_, fun n => absurd c n⟩
    rw [if_pos c]
    have e2 : d.sh.gV (d.sh.vG v IN) IN = v := by rw [c]; exact eo
    simp only [gExpected, hfl, hfl', ei, e2, upd_same]
  · have a1 : d.sh.gV (d.sh.vG v IN) IN ≠ v := by
      intro e; apply c
      have := h.topo.vG_gV _ hmi IN
      rw [e] at this; exact this.symm
    have a2 : d.sh.gV (d.sh.vG v OUT) OUT ≠ v := by
      intro e; apply c
      have := h.topo.vG_gV _ hmo OUT
      rw [e] at this; exact this
    refine ⟨?_, fun _ => ?_⟩
    · rw [if_neg c]
      simp only [gExpected, hfl, hfl', ei, upd_same, upd_ne _ _ a1]
    · simp only [gExpected, hfl, hfl', eo, upd_same, upd_ne _ _ a2]

/-! ### Changing the time of a vertex -/

/-- The discrete effect of moving vertex `v` to time `T`. -/
def setTau (d : Diag Q F) (v : ℕ) (T : Q) : Diag Q F := { d with co := { d.co with tau := upd d.co.tau v T } }

theorem changeTau_skip (h : Inv P d) {v : ℕ} (hv : v ∈ d.Ver.live) {T : Q}
    (hc : ¬ (d.order ≠ 0 ∧ d.worm.exist = false ∧ d.fl.wDelta (d.sh.vW v) = false)) (u : Q) :
    (Move.changeTau v T).run P d u = skip d := by
  simp only [Move.run]
  by_cases c : d.order = 0 ∨ d.worm.exist = true
  · rw [if_pos c]
  rw [if_neg c]
  simp only [not_or, Bool.not_eq_true] at c
  unfold changeTauCore
  simp only [deref_live hv, Res.ok_bind, deref_live (h.topo.vW_mem v hv)]
  rw [if_pos]
  by_contra hn
  exact hc ⟨c.1, c.2, by simpa using hn⟩

theorem changeTau_run (h : Inv P d) {v : ℕ} (hv : v ∈ d.Ver.live) {T : Q} (ho : d.order ≠ 0)
    (hw : d.worm.exist = false) (hδ : d.fl.wDelta (d.sh.vW v) = false) :
    ∃ R : F, ∃ wt ph, (NonZero P (setTau d v T) → R ≠ 0) ∧ ∀ u, (Move.changeTau v T).run P d u =
      metropolis d d (P.mod R * (probTau P (d.co.tau v) / probTau P T)) u
        (.ok { setTau d v T with weight := d.weight * R, phase := ph, wt := wt }) := by
  have hwl := h.topo.vW_mem v hv
  have hgi := h.topo.vG_mem v hv IN
  have hgo := h.topo.vG_mem v hv OUT
  have ha := h.topo.gV_mem _ hgi IN
  have hb := h.topo.gV_mem _ hgo OUT
  have hx := h.topo.wV_mem _ hwl (!d.sh.vDir v)
  have hfar := h.topo.far_ne hv
  have hdm : d.fl.wDelta (d.sh.vW v) = true → d.fl.wMeas (d.sh.vW v) = false := fun e => by rw [hδ] at e; cases e
  have hL := wW_line h.topo hv P d.ext d.co.r (upd d.co.tau v T) d.co.spin (d.fl.wWorm (d.sh.vW v)) _ _
    (d.fl.wGam (d.sh.vW v)) hdm
  rw [upd_same, upd_ne _ _ hfar] at hL
  obtain ⟨t1, t2⟩ := tau_gexp h hv T d.fl rfl rfl
  have hmain : ∃ R : F, ∃ wt ph, (NonZero P (setTau d v T) → R ≠ 0) ∧ ∀ u, changeTauCore P d v T u =
      metropolis d d (P.mod R * (probTau P (d.co.tau v) / probTau P T)) u
        (.ok { setTau d v T with weight := d.weight * R, phase := ph, wt := wt }) := by
    unfold changeTauCore
    simp only [deref_live hv, deref_live hwl, deref_live hgi, deref_live hgo, deref_live ha, deref_live hb,
      deref_live hx, Res.ok_bind, if_neg hfar]
    rw [hδ] at hL ⊢
    simp only [Bool.false_eq_true, if_false]
    rw [hL, t1]
    refine ⟨_, _, _, ?_, fun u => rfl⟩
    rintro ⟨n1, n2⟩
    have m1 := n1 _ hgi
    have m2 := n1 _ hgo
    have m3 := n2 _ hwl
    have q3 : wW0 P d.ext (d.co.r (d.sh.wV (d.sh.vW v) IN)) (d.co.r (d.sh.wV (d.sh.vW v) OUT))
        (upd d.co.tau v T (d.sh.wV (d.sh.vW v) IN)) (upd d.co.tau v T (d.sh.wV (d.sh.vW v) OUT))
        (d.co.spin (d.sh.wV (d.sh.vW v) IN)) (d.co.spin (d.sh.wV (d.sh.vW v) OUT)) (d.fl.wWorm (d.sh.vW v))
        (d.fl.wMeas (d.sh.vW v)) false (d.fl.wGam (d.sh.vW v)) ≠ 0 := by
      have q := m3
      have e0 : (setTau d v T).fl.wDelta (d.sh.vW v) = false := hδ
      unfold wExpected at q; rw [e0] at q; exact q
    have w1 := h.line.w_ne _ hwl
    have g1 := h.line.g_ne _ hgi
    have g2 := h.line.g_ne _ hgo
    split_ifs with c
    · exact div_ne_zero (mul_ne_zero m1 q3) (mul_ne_zero g1 w1)
    · rw [t2 c]
      exact div_ne_zero (mul_ne_zero (mul_ne_zero m1 m2) q3) (mul_ne_zero (mul_ne_zero g1 g2) w1)
  obtain ⟨R, wt, ph, hR, e⟩ := hmain
  refine ⟨R, wt, ph, hR, fun u => ?_⟩
  simp only [Move.run]
  rw [if_neg (by simp [ho, hw])]
  exact e u

theorem probTau_div (hP : P.Wf) (s t : Q) : probTau P s / probTau P t = 1 := by
  unfold probTau
  exact div_self (one_div_ne_zero hP.beta_pos.ne')

theorem changeTau_bal (hP : P.Wf) (h : Inv P d) (h' : Inv P d') {v : ℕ} {T u p : Q}
    (hm : (Move.changeTau v T).Valid P d) (hu : 0 ≤ u)
    {out : Out Q F} (e : (Move.changeTau v T).run P d u = .ok out) (ha : out.tag = .accept)
    (hd : out.d = d') (hp : out.prob = p) : Bal P d (Move.changeTau v T) d' p := by
  have hv : v ∈ d.Ver.live := hm.2.1
  by_cases hc : d.order ≠ 0 ∧ d.worm.exist = false ∧ d.fl.wDelta (d.sh.vW v) = false
  swap
  · rw [changeTau_skip h hv hc] at e; exact absurd ha (fun q => skip_not_accept e q)
  obtain ⟨ho, hw, hδ⟩ := hc
  obtain ⟨R, wt, ph, -, er⟩ := changeTau_run (P := P) (T := T) h hv ho hw hδ
  rw [er] at e
  have hd' := (metropolis_accept e ha).2.1
  rw [hd] at hd'
  subst hd'
  obtain ⟨R', wt', ph', hR', er'⟩ := changeTau_run (P := P) (T := d.co.tau v) h' hv ho hw hδ
  have hcells : ∀ wt ph we, SameCells d { setTau { setTau d v T with weight := d.weight * R, phase := ph, wt := wt }
      v (d.co.tau v) with weight := we, phase := ph', wt := wt' } := by
    intro wt ph we
    constructor <;> first
      | (intros; rfl)
      | skip
    intro _ x _
    show upd (upd d.co.tau v T) v (d.co.tau v) x = d.co.tau x
    simp only [upd_apply]
    split_ifs with q
    · rw [q]
    · rfl
  refine bal_core hP h h' hu e ha hd hp rfl (by rw [probTau_div hP]; exact one_pos)
    (by rw [probTau_div hP, probTau_div hP, one_mul]) ⟨idx_lt P (op := .changeTau) (by decide), hv, (h.dom v hv).2⟩
    ?_ er' rfl (hR' ?_) (hcells wt ph _).parts ?_
  · simp [Move.rev, setTau]
  · exact (hcells wt ph 0).nonZero h ho
  · rw [probTau_div hP, one_mul]; rfl

/-! ### Delta and continuous interaction lines -/

/-- The discrete effect of `deltaCore`. -/
def setDelta (d : Diag Q F) (w : ℕ) (δ : Bool) (T : Q) : Diag Q F :=
  { d with
    co := { d.co with tau := upd d.co.tau (d.sh.wV w OUT) T }
    fl := { d.fl with wDelta := upd d.fl.wDelta w δ } }

theorem deltaCore_run (h : Inv P d) {w : ℕ} (hw : w ∈ d.W.live) (δ : Bool) (T c : Q) :
    ∃ R : F, ∃ wt ph, (NonZero P (setDelta d w δ T) → R ≠ 0) ∧ ∀ u, deltaCore P d δ w T c u =
      metropolis d d (P.mod R * c) u
        (.ok { setDelta d w δ T with weight := d.weight * R, phase := ph, wt := wt }) := by
  have hx := h.topo.wV_mem w hw IN
  have hv := h.topo.wV_mem w hw OUT
  have hgi := h.topo.vG_mem _ hv IN
  have hgo := h.topo.vG_mem _ hv OUT
  have ha := h.topo.gV_mem _ hgi IN
  have hb := h.topo.gV_mem _ hgo OUT
  have hfar := h.topo.wV_ne hw
  obtain ⟨t1, t2⟩ := tau_gexp (P := P) h hv T { d.fl with wDelta := upd d.fl.wDelta w δ } rfl rfl
  unfold deltaCore
  simp only [deref_live hv, deref_live hgi, deref_live hgo, deref_live ha, deref_live hb,
    deref_live hx, Res.ok_bind, gW_eq, Bool.true_eq_false, if_false]
  rw [t1]
  refine ⟨_, _, _, ?_, fun u => rfl⟩
  rintro ⟨n1, n2⟩
  have m1 := n1 _ hgi
  have m2 := n1 _ hgo
  have m3 := n2 _ hw
  have q3 : wW0 P d.ext (d.co.r (d.sh.wV w IN)) (d.co.r (d.sh.wV w OUT)) (d.co.tau (d.sh.wV w IN)) T
      (d.co.spin (d.sh.wV w IN)) (d.co.spin (d.sh.wV w OUT)) (d.fl.wWorm w) (d.fl.wMeas w) δ (d.fl.wGam w) ≠ 0 := by
    have := m3
    simp only [wExpected, setDelta, upd_same, upd_ne _ _ hfar] at this
    exact this
  have w1 := h.line.w_ne _ hw
  have g1 := h.line.g_ne _ hgi
  have g2 := h.line.g_ne _ hgo
  split_ifs with c
  · exact div_ne_zero (mul_ne_zero m1 q3) (mul_ne_zero g1 w1)
  · rw [t2 c]
    exact div_ne_zero (mul_ne_zero (mul_ne_zero m1 m2) q3) (mul_ne_zero (mul_ne_zero g1 g2) w1)

/-- When a line can change its kind. -/
def DeltaOkAt (d : Diag Q F) (w : ℕ) (δ : Bool) : Prop :=
  (¬ d.order < 2 ∧ d.worm.exist = false) ∧ d.fl.wDelta w = δ ∧ d.fl.wMeas w = false ∧ d.fl.wGam w = false

theorem delta2cont_skip {w : ℕ} (hw : w ∈ d.W.live) {T : Q} (hc : ¬ DeltaOkAt d w true) (u : Q) :
    (Move.delta2cont w T).run P d u = skip d := by
  simp only [Move.run]
  by_cases c : d.order < 2 ∨ d.worm.exist = true
  · rw [if_pos c]
  rw [if_neg c]
  simp only [not_or, Bool.not_eq_true] at c
  unfold delta2contCore
  rw [deref_live hw, Res.ok_bind, if_pos]
  by_contra hn
  simp only [Bool.or_eq_true, not_or, Bool.not_eq_true, Bool.not_eq_false'] at hn
  exact hc ⟨c, hn.1.1, hn.1.2, hn.2⟩

theorem cont2delta_skip {w : ℕ} (hw : w ∈ d.W.live) (hc : ¬ DeltaOkAt d w false) (u : Q) :
    (Move.cont2delta w).run P d u = skip d := by
  simp only [Move.run]
  by_cases c : d.order < 2 ∨ d.worm.exist = true
  · rw [if_pos c]
  rw [if_neg c]
  simp only [not_or, Bool.not_eq_true] at c
  unfold cont2deltaCore
  rw [deref_live hw, Res.ok_bind, if_pos]
  by_contra hn
  simp only [Bool.or_eq_true, not_or, Bool.not_eq_true] at hn
  exact hc ⟨c, hn.1.1, hn.1.2, hn.2⟩

theorem delta2cont_run (h : Inv P d) {w : ℕ} (hw : w ∈ d.W.live) {T : Q} (hc : DeltaOkAt d w true) :
    ∃ R : F, ∃ wt ph, (NonZero P (setDelta d w false T) → R ≠ 0) ∧ ∀ u, (Move.delta2cont w T).run P d u =
      metropolis d d (P.mod R * (probOfCall P .cont2delta / (probOfCall P .delta2cont * probTau P T))) u
        (.ok { setDelta d w false T with weight := d.weight * R, phase := ph, wt := wt }) := by
  obtain ⟨R, wt, ph, hR, e⟩ := deltaCore_run (P := P) h hw false T
    (probOfCall P .cont2delta / (probOfCall P .delta2cont * probTau P T))
  refine ⟨R, wt, ph, hR, fun u => ?_⟩
  obtain ⟨⟨c1, c2⟩, c3, c4, c5⟩ := hc
  simp only [Move.run]
  rw [if_neg (by simp [c1, c2])]
  unfold delta2contCore
  rw [deref_live hw, Res.ok_bind, if_neg (by simp [c3, c4, c5])]
  exact e u

theorem cont2delta_run (h : Inv P d) {w : ℕ} (hw : w ∈ d.W.live) (hc : DeltaOkAt d w false) :
    ∃ R : F, ∃ wt ph, (NonZero P (setDelta d w true (d.co.tau (d.sh.wV w IN))) → R ≠ 0) ∧
      ∀ u, (Move.cont2delta w).run P d u =
      metropolis d d (P.mod R * (probOfCall P .delta2cont * probTau P (d.co.tau (d.sh.wV w OUT)) /
        probOfCall P .cont2delta)) u
        (.ok { setDelta d w true (d.co.tau (d.sh.wV w IN)) with
          weight := d.weight * R, phase := ph, wt := wt }) := by
  obtain ⟨R, wt, ph, hR, e⟩ := deltaCore_run (P := P) h hw true (d.co.tau (d.sh.wV w IN))
    (probOfCall P .delta2cont * probTau P (d.co.tau (d.sh.wV w OUT)) / probOfCall P .cont2delta)
  refine ⟨R, wt, ph, hR, fun u => ?_⟩
  obtain ⟨⟨c1, c2⟩, c3, c4, c5⟩ := hc
  simp only [Move.run]
  rw [if_neg (by simp [c1, c2])]
  unfold cont2deltaCore
  rw [deref_live hw, Res.ok_bind, if_neg (by simp [c3, c4, c5])]
  simp only [deref_live (h.topo.wV_mem w hw IN), Res.ok_bind, deref_live (h.topo.wV_mem w hw OUT)]
  exact e u

theorem setDelta_back {w : ℕ} (δ : Bool) (T T' : Q) (hδ : d.fl.wDelta w = δ)
    (hT : T' = d.co.tau (d.sh.wV w OUT)) (wt wt' : Wts F) (a b ph ph' : F) :
    SameCells d { setDelta { setDelta d w (!δ) T with weight := a, phase := ph, wt := wt } w δ T' with
      weight := b, phase := ph', wt := wt' } := by
  constructor <;> first
    | (intros; rfl)
    | skip
  · intro _ x _
    show upd (upd d.co.tau (d.sh.wV w OUT) T) (d.sh.wV w OUT) T' x = d.co.tau x
    simp only [upd_apply]
    split_ifs with q
    · rw [q, hT]
    · rfl
  · intro x _
    show upd (upd d.fl.wDelta w (!δ)) w δ x = d.fl.wDelta x
    simp only [upd_apply]
    split_ifs with q
    · rw [q, hδ]
    · rfl

theorem delta2cont_bal (hP : P.Wf) (h : Inv P d) (h' : Inv P d') (hdt : DeltaTau d) {w : ℕ} {T u p : Q}
    (hm : (Move.delta2cont w T).Valid P d) (hu : 0 ≤ u)
    {out : Out Q F} (e : (Move.delta2cont w T).run P d u = .ok out) (ha : out.tag = .accept)
    (hd : out.d = d') (hp : out.prob = p) : Bal P d (Move.delta2cont w T) d' p := by
  have hw : w ∈ d.W.live := hm.2.1
  by_cases hc : DeltaOkAt d w true
  swap
  · rw [delta2cont_skip hw hc] at e; exact absurd ha (fun q => skip_not_accept e q)
  have hfar := h.topo.wV_ne hw
  obtain ⟨R, wt, ph, -, er⟩ := delta2cont_run (P := P) (T := T) h hw hc
  rw [er] at e
  have hd' := (metropolis_accept e ha).2.1
  rw [hd] at hd'
  subst hd'
  obtain ⟨⟨c1, c2⟩, c3, c4, c5⟩ := hc
  obtain ⟨R', wt', ph', hR', er'⟩ := cont2delta_run (P := P) h' hw ⟨⟨c1, c2⟩, upd_same _ _ _, c4, c5⟩
  have hT' : (setDelta d w false T).co.tau ((setDelta d w false T).sh.wV w IN) = d.co.tau (d.sh.wV w OUT) := by
    show upd d.co.tau (d.sh.wV w OUT) T (d.sh.wV w IN) = _
    rw [upd_ne _ _ hfar]; exact hdt w hw c3
  have hcells := fun b => setDelta_back true T _ c3 hT' wt wt' (d.weight * R) b ph ph'
  have hb := hP.beta_pos
  have hn := numOps_cast_pos P
  refine bal_core hP h h' hu e ha hd hp rfl ?_ ?_ ⟨idx_lt P (op := .cont2delta) (by decide), hw⟩
    ?_ er' rfl (hR' ?_) (hcells _).parts ?_
  · rw [probOfCall_eq P (idx_lt P (op := .cont2delta) (by decide)),
      probOfCall_eq P (idx_lt P (op := .delta2cont) (by decide)), probTau]; positivity
  · rw [probOfCall_eq P (idx_lt P (op := .cont2delta) (by decide)),
      probOfCall_eq P (idx_lt P (op := .delta2cont) (by decide)), probTau, probTau]; field_simp
  · simp [Move.rev, setDelta]
  · exact (hcells 0).nonZero h (by omega)
  · rw [probOfCall_eq P (idx_lt P (op := .cont2delta) (by decide)),
      probOfCall_eq P (idx_lt P (op := .delta2cont) (by decide)), probTau,
      sector_congr (d' := { setDelta d w false T with weight := d.weight * R, phase := ph, wt := wt })
      P (d := d) rfl rfl rfl rfl rfl rfl]
    simp only [Move.density, Move.rev, setDelta]
    field_simp

theorem cont2delta_bal (hP : P.Wf) (h : Inv P d) (h' : Inv P d') {w : ℕ} {u p : Q}
    (hm : (Move.cont2delta w : Move Q).Valid P d) (hu : 0 ≤ u)
    {out : Out Q F} (e : (Move.cont2delta w).run P d u = .ok out) (ha : out.tag = .accept)
    (hd : out.d = d') (hp : out.prob = p) : Bal P d (Move.cont2delta w) d' p := by
  have hw : w ∈ d.W.live := hm.2
  by_cases hc : DeltaOkAt d w false
  swap
  · rw [cont2delta_skip hw hc] at e; exact absurd ha (fun q => skip_not_accept e q)
  have hfar := h.topo.wV_ne hw
  obtain ⟨R, wt, ph, -, er⟩ := cont2delta_run (P := P) h hw hc
  rw [er] at e
  have hd' := (metropolis_accept e ha).2.1
  rw [hd] at hd'
  subst hd'
  obtain ⟨⟨c1, c2⟩, c3, c4, c5⟩ := hc
  obtain ⟨R', wt', ph', hR', er'⟩ := delta2cont_run (P := P) (T := d.co.tau (d.sh.wV w OUT)) h' hw
    ⟨⟨c1, c2⟩, upd_same _ _ _, c4, c5⟩
  have hcells := fun b => setDelta_back false (d.co.tau (d.sh.wV w IN)) _ c3 rfl wt wt' (d.weight * R) b ph ph'
  have hb := hP.beta_pos
  have hn := numOps_cast_pos P
  refine bal_core hP h h' hu e ha hd hp rfl ?_ ?_
    ⟨idx_lt P (op := .delta2cont) (by decide), hw, (h.dom _ (h.topo.wV_mem w hw OUT)).2⟩
    ?_ er' rfl (hR' ?_) (hcells _).parts ?_
  · rw [probOfCall_eq P (idx_lt P (op := .cont2delta) (by decide)),
      probOfCall_eq P (idx_lt P (op := .delta2cont) (by decide)), probTau]; positivity
  · rw [probOfCall_eq P (idx_lt P (op := .cont2delta) (by decide)),
      probOfCall_eq P (idx_lt P (op := .delta2cont) (by decide))]; simp only [probTau]; field_simp
  · simp [Move.rev, setDelta]
  · exact (hcells 0).nonZero h (by omega)
  · rw [probOfCall_eq P (idx_lt P (op := .cont2delta) (by decide)),
      probOfCall_eq P (idx_lt P (op := .delta2cont) (by decide)), probTau,
      sector_congr (d' := { setDelta d w true (d.co.tau (d.sh.wV w IN)) with
        weight := d.weight * R, phase := ph, wt := wt }) P (d := d) rfl rfl rfl rfl rfl rfl]
    simp only [Move.density, Move.rev, setDelta]
    field_simp

/-! ### The measuring line -/

/-- The discrete effect of `ChangeMeasureFromGToW`. -/
def setMeasW (d : Diag Q F) (w : ℕ) : Diag Q F :=
  { d with
    measG := false, gMeasure := NULL, wMeasure := w
    fl := { d.fl with gMeas := upd d.fl.gMeas d.gMeasure false, wMeas := upd d.fl.wMeas w true } }

/-- The discrete effect of `ChangeMeasureFromWToG`. -/
def setMeasG (d : Diag Q F) (g : ℕ) : Diag Q F :=
  { d with
    measG := true, gMeasure := g, wMeasure := NULL
    fl := { d.fl with gMeas := upd d.fl.gMeas g true, wMeas := upd d.fl.wMeas d.wMeasure false } }

theorem g2w_skip {w : ℕ} (hw : w ∈ d.W.live)
    (hc : ¬ (d.order ≠ 0 ∧ d.worm.exist = false ∧ d.measG = true ∧ d.hasGamma = 0 ∧ d.fl.wDelta w = false)) (u : Q) :
    (Move.g2w w).run P d u = skip d := by
  simp only [Move.run]
  by_cases c : d.order = 0 ∨ d.worm.exist = true ∨ d.measG = false
  · rw [if_pos c]
  rw [if_neg c]
  by_cases c' : d.hasGamma ≠ 0
  · rw [if_pos c']
  rw [if_neg c']
  simp only [not_or, Bool.not_eq_true, Bool.not_eq_false, not_not] at c c'
  unfold g2wCore
  rw [deref_live hw, Res.ok_bind, if_pos]
  by_contra hn
  exact hc ⟨c.1, c.2.1, c.2.2, c', by simpa using hn⟩

theorem g2w_run (h : Inv P d) {w : ℕ} (hw : w ∈ d.W.live) (ho : d.order ≠ 0) (hwm : d.worm.exist = false)
    (hm : d.measG = true) (hγ : d.hasGamma = 0) (hδ : d.fl.wDelta w = false) :
    ∃ R : F, ∃ wt ph, (NonZero P (setMeasW d w) → R ≠ 0) ∧ ∀ u, (Move.g2w w).run P d u =
      metropolis d d (P.mod R * (1 / 2 * P.polarRW * probOfCall P .w2g / probOfCall P .g2w)) u
        (.ok { setMeasW d w with weight := d.weight * R, phase := ph, wt := wt }) := by
  have hg := h.meas.g_mem hm
  have ha := h.topo.gV_mem _ hg IN
  have hb := h.topo.gV_mem _ hg OUT
  have hx := h.topo.wV_mem _ hw IN
  have hy := h.topo.wV_mem _ hw OUT
  have hgg := h.noGamG (by omega)
  have hwg := h.noGamW (by omega)
  have hsp := h.spin _ hg
  have hmain : ∃ R : F, ∃ wt ph, (NonZero P (setMeasW d w) → R ≠ 0) ∧ ∀ u, g2wCore P d w u =
      metropolis d d (P.mod R * (1 / 2 * P.polarRW * probOfCall P .w2g / probOfCall P .g2w)) u
        (.ok { setMeasW d w with weight := d.weight * R, phase := ph, wt := wt }) := by
    unfold g2wCore
    simp only [deref_live hg, deref_live hw, deref_live ha, deref_live hb, deref_live hx, deref_live hy,
      Res.ok_bind, hδ, Bool.false_eq_true, if_false]
    refine ⟨_, _, _, ?_, fun u => rfl⟩
    rintro ⟨n1, n2⟩
    have m1 := n1 _ hg
    have m2 := n2 _ hw
    simp only [gExpected, wExpected, setMeasW, upd_same, hgg _ hg, hwg _ hw, ← hsp, hδ] at m1 m2
    exact div_ne_zero (mul_ne_zero m1 m2) (mul_ne_zero (h.line.g_ne _ hg) (h.line.w_ne _ hw))
  obtain ⟨R, wt, ph, hR, e⟩ := hmain
  refine ⟨R, wt, ph, hR, fun u => ?_⟩
  simp only [Move.run]
  rw [if_neg (by simp [ho, hwm, hm]), if_neg (by simp [hγ])]
  exact e u

theorem w2g_skip {g : ℕ}
    (hc : ¬ (d.order ≠ 0 ∧ d.worm.exist = false ∧ d.measG = false ∧ d.hasGamma = 0)) (u : Q) :
    (Move.w2g g).run P d u = skip d := by
  simp only [Move.run]
  by_cases c : d.order = 0 ∨ d.worm.exist = true ∨ d.measG = true
  · rw [if_pos c]
  rw [if_neg c]
  by_cases c' : d.hasGamma ≠ 0
  · rw [if_pos c']
  simp only [not_or, Bool.not_eq_true, Bool.not_eq_false, not_not] at c c'
  exact absurd ⟨c.1, c.2.1, c.2.2, c'⟩ hc

theorem w2g_run (h : Inv P d) {g : ℕ} (hg : g ∈ d.G.live) (ho : d.order ≠ 0) (hwm : d.worm.exist = false)
    (hm : d.measG = false) (hγ : d.hasGamma = 0) :
    ∃ R : F, ∃ wt ph, (NonZero P (setMeasG d g) → R ≠ 0) ∧ ∀ u, (Move.w2g g).run P d u =
      metropolis d d (P.mod R * (probOfCall P .g2w / (1 / 2 * P.polarRW * probOfCall P .w2g))) u
        (.ok { setMeasG d g with weight := d.weight * R, phase := ph, wt := wt }) := by
  have hw := h.meas.w_mem hm
  have ha := h.topo.gV_mem _ hg IN
  have hb := h.topo.gV_mem _ hg OUT
  have hx := h.topo.wV_mem _ hw IN
  have hy := h.topo.wV_mem _ hw OUT
  have hgg := h.noGamG (by omega)
  have hwg := h.noGamW (by omega)
  have hsp := h.spin _ hg
  have hδ : d.fl.wDelta d.wMeasure = false := by
    by_contra hn
    have := (h.delta _ hw (by simpa using hn)).1
    have h2 := (h.meas.w_flag _ hw).2 ⟨hm, rfl⟩
    rw [this] at h2; cases h2
  have hmain : ∃ R : F, ∃ wt ph, (NonZero P (setMeasG d g) → R ≠ 0) ∧ ∀ u, w2gCore P d g u =
      metropolis d d (P.mod R * (probOfCall P .g2w / (1 / 2 * P.polarRW * probOfCall P .w2g))) u
        (.ok { setMeasG d g with weight := d.weight * R, phase := ph, wt := wt }) := by
    unfold w2gCore
    simp only [deref_live hg, deref_live hw, deref_live ha, deref_live hb, deref_live hx, deref_live hy,
      Res.ok_bind, hδ, Bool.false_eq_true, if_false]
    refine ⟨_, _, _, ?_, fun u => rfl⟩
    rintro ⟨n1, n2⟩
    have m1 := n1 _ hg
    have m2 := n2 _ hw
    simp only [gExpected, wExpected, setMeasG, upd_same, hgg _ hg, hwg _ hw, ← hsp, hδ] at m1 m2
    exact div_ne_zero (mul_ne_zero m1 m2) (mul_ne_zero (h.line.g_ne _ hg) (h.line.w_ne _ hw))
  obtain ⟨R, wt, ph, hR, e⟩ := hmain
  refine ⟨R, wt, ph, hR, fun u => ?_⟩
  simp only [Move.run]
  rw [if_neg (by simp [ho, hwm, hm]), if_neg (by simp [hγ])]
  exact e u

theorem g2w_bal (hP : P.Wf) (hf : PosFactors P) (h : Inv P d) (h' : Inv P d') {w : ℕ} {u p : Q}
    (hm : (Move.g2w w : Move Q).Valid P d) (hu : 0 ≤ u)
    {out : Out Q F} (e : (Move.g2w w).run P d u = .ok out) (ha : out.tag = .accept)
    (hd : out.d = d') (hp : out.prob = p) : Bal P d (Move.g2w w) d' p := by
  have hw : w ∈ d.W.live := hm.2
  by_cases hc : d.order ≠ 0 ∧ d.worm.exist = false ∧ d.measG = true ∧ d.hasGamma = 0 ∧ d.fl.wDelta w = false
  swap
  · rw [g2w_skip hw hc] at e; exact absurd ha (fun q => skip_not_accept e q)
  obtain ⟨ho, hwm, hmg, hγ, hδ⟩ := hc
  have hg := h.meas.g_mem hmg
  obtain ⟨R, wt, ph, -, er⟩ := g2w_run (P := P) h hw ho hwm hmg hγ hδ
  rw [er] at e
  have hd' := (metropolis_accept e ha).2.1
  rw [hd] at hd'
  subst hd'
  obtain ⟨R', wt', ph', hR', er'⟩ := w2g_run (P := P) (g := d.gMeasure) h' hg ho hwm rfl hγ
  have hcells : ∀ b, SameCells d { setMeasG { setMeasW d w with weight := d.weight * R, phase := ph, wt := wt }
      d.gMeasure with weight := b, phase := ph', wt := wt' } := by
    intro b
    constructor <;> first
      | (intros; rfl)
      | skip
    · intro x hx
      show upd (upd d.fl.gMeas d.gMeasure false) d.gMeasure true x = d.fl.gMeas x
      simp only [upd_apply]
      split_ifs with q
      · exact ((h.meas.g_flag x hx).2 ⟨hmg, q⟩).symm
      · rfl
    · intro x hx
      show upd (upd d.fl.wMeas w true) w false x = d.fl.wMeas x
      simp only [upd_apply]
      split_ifs with q
      · have := h.meas.w_flag x hx
        rw [hmg] at this
        simpa using this
      · rfl
    · exact hmg.symm
    · intro q; rw [hmg] at q; cases q
  have hpol := hf.polar
  have hn := numOps_cast_pos P
  have hpos := h.count.n_pos
  have hGW := h.count.g
  refine bal_core hP h h' hu e ha hd hp rfl ?_ ?_ ⟨idx_lt P (op := .w2g) (by decide), hg⟩
    ?_ er' rfl (hR' ?_) (hcells _).parts ?_
  · rw [probOfCall_eq P (idx_lt P (op := .w2g) (by decide)),
      probOfCall_eq P (idx_lt P (op := .g2w) (by decide))]; positivity
  · rw [probOfCall_eq P (idx_lt P (op := .w2g) (by decide)),
      probOfCall_eq P (idx_lt P (op := .g2w) (by decide))]; field_simp
  · simp [Move.rev, setMeasW]
  · exact (hcells 0).nonZero h ho
  · rw [probOfCall_eq P (idx_lt P (op := .w2g) (by decide)), probOfCall_eq P (idx_lt P (op := .g2w) (by decide))]
    simp only [Move.density, Move.rev, setMeasW, sector, hmg, hγ, hwm, hGW]
    have hN : (0 : Q) < (d.W.avail : Q) := by exact_mod_cast hpos
    push_cast
    simp
    field_simp

theorem w2g_bal (hP : P.Wf) (hf : PosFactors P) (h : Inv P d) (h' : Inv P d') {g : ℕ} {u p : Q}
    (hm : (Move.w2g g : Move Q).Valid P d) (hu : 0 ≤ u)
    {out : Out Q F} (e : (Move.w2g g).run P d u = .ok out) (ha : out.tag = .accept)
    (hd : out.d = d') (hp : out.prob = p) : Bal P d (Move.w2g g) d' p := by
  have hg : g ∈ d.G.live := hm.2
  by_cases hc : d.order ≠ 0 ∧ d.worm.exist = false ∧ d.measG = false ∧ d.hasGamma = 0
  swap
  · rw [w2g_skip hc] at e; exact absurd ha (fun q => skip_not_accept e q)
  obtain ⟨ho, hwm, hmg, hγ⟩ := hc
  have hw := h.meas.w_mem hmg
  have hδ : d.fl.wDelta d.wMeasure = false := by
    by_contra hn
    have := (h.delta _ hw (by simpa using hn)).1
    have h2 := (h.meas.w_flag _ hw).2 ⟨hmg, rfl⟩
    rw [this] at h2; cases h2
  obtain ⟨R, wt, ph, -, er⟩ := w2g_run (P := P) h hg ho hwm hmg hγ
  rw [er] at e
  have hd' := (metropolis_accept e ha).2.1
  rw [hd] at hd'
  subst hd'
  obtain ⟨R', wt', ph', hR', er'⟩ := g2w_run (P := P) (w := d.wMeasure) h' hw ho hwm rfl hγ hδ
  have hcells : ∀ b, SameCells d { setMeasW { setMeasG d g with weight := d.weight * R, phase := ph, wt := wt }
      d.wMeasure with weight := b, phase := ph', wt := wt' } := by
    intro b
    constructor <;> first
      | (intros; rfl)
      | skip
    · intro x hx
      show upd (upd d.fl.gMeas g true) g false x = d.fl.gMeas x
      simp only [upd_apply]
      split_ifs with q
      · have := h.meas.g_flag x hx
        rw [hmg] at this
        simpa using this
      · rfl
    · intro x hx
      show upd (upd d.fl.wMeas d.wMeasure false) d.wMeasure true x = d.fl.wMeas x
      simp only [upd_apply]
      split_ifs with q
      · exact ((h.meas.w_flag x hx).2 ⟨hmg, q⟩).symm
      · rfl
    · exact hmg.symm
    · intro q; rw [hmg] at q; cases q
  have hpol := hf.polar
  have hn := numOps_cast_pos P
  have hpos := h.count.n_pos
  have hGW := h.count.g
  refine bal_core hP h h' hu e ha hd hp rfl ?_ ?_ ⟨idx_lt P (op := .g2w) (by decide), hw⟩
    ?_ er' rfl (hR' ?_) (hcells _).parts ?_
  · rw [probOfCall_eq P (idx_lt P (op := .w2g) (by decide)),
      probOfCall_eq P (idx_lt P (op := .g2w) (by decide))]; positivity
  · rw [probOfCall_eq P (idx_lt P (op := .w2g) (by decide)),
      probOfCall_eq P (idx_lt P (op := .g2w) (by decide))]; field_simp
  · simp [Move.rev, setMeasG]
  · exact (hcells 0).nonZero h ho
  · rw [probOfCall_eq P (idx_lt P (op := .w2g) (by decide)), probOfCall_eq P (idx_lt P (op := .g2w) (by decide))]
    simp only [Move.density, Move.rev, setMeasG, sector, hmg, hγ, hwm, hGW]
    have hN : (0 : Q) < (d.W.avail : Q) := by exact_mod_cast hpos
    push_cast
    simp
    field_simp

end
end Feyn
