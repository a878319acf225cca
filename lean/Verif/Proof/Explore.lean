import Verif.Proof.Return
import Verif.Spec.Explore

/-!
# Exploration of times and sites
-/

namespace Feyn

set_option linter.unusedSectionVars false
set_option linter.unusedSimpArgs false

section
variable {Q F : Type} [Field Q] [LinearOrder Q] [IsStrictOrderedRing Q] [Field F]
variable {P : Params Q F} {d₀ : Diag Q F}

attribute [local irreducible] metropolis

theorem GridTime.tauIn (hP : P.Wf) {t : Q} (h : GridTime P t) : TauIn P t := by
  obtain ⟨w, rfl⟩ := h.word
  exact pickTau_in hP w

theorem gridTime_zero : GridTime P 0 := ⟨0, by norm_num, by simp⟩

/-- A proposal with a positive factor and non-zero weight ratio is accepted by some hop. -/
theorem hops_of_run {c : Chain Q F} (hP : c.P.Wf) (hs : SmallLattice c.P) (hi : Inv c.P c.d) {m : Move Q} (hm : m.Valid c.P c.d)
    (ht : m.Times (GridTime c.P)) {R : F} {f : Q} {d' : Diag Q F} (hR : R ≠ 0) (hf : 0 < f)
    (e : ∀ u, m.run c.P c.d u = metropolis c.d c.d (c.P.mod R * f) u (.ok d')) :
    ∃ c', Hops c c' ∧ c'.P = c.P ∧ c'.d = d' := by
  obtain ⟨z, ez⟩ := urn_zero (Q := Q)
  have hp : 0 < c.P.mod R * f := mul_pos (c.P.mod.pos hR) hf
  have er := (e (urn Q z)).trans (metropolis_yes (hi.order_lt hP) (Or.inr (by rw [ez]; exact hp)) d')
  obtain ⟨o, eo⟩ := Move.hopOne hs hi hm ht er
  exact ⟨_, .one eo, rfl, rfl⟩

/-- The state `c` is at the given positions. -/
def At (d₀ : Diag Q F) (r : ℕ → Site) (tau : ℕ → Q) (δ : ℕ → Bool) (c : Chain Q F) : Prop :=
  Inv c.P c.d ∧ ∃ wt we ph, c.d = place d₀ r tau δ wt we ph

theorem place_nonZero {r : ℕ → Site} {tau : ℕ → Q} {δ : ℕ → Bool} (wt : Wts F) (we ph : F)
    (hg : ∀ g ∈ d₀.G.live, gAt P d₀ r tau g ≠ 0) (hw : ∀ w ∈ d₀.W.live, wAt P d₀ r tau (δ w) w ≠ 0) :
    NonZero P (place d₀ r tau δ wt we ph) := ⟨hg, hw⟩

theorem upd_upd_self {β : Type*} (f : ℕ → β) (a : ℕ) : upd f a (f a) = f := by
  funext x
  rw [upd_apply]
  split_ifs with h
  · rw [h]
  · rfl

/-- One time is changed. -/
theorem At.tau {c : Chain Q F} (hP : c.P.Wf) (hs : SmallLattice c.P) (ho : d₀.order ≠ 0) (hwm : d₀.worm.exist = false)
    {r : ℕ → Site} {tau : ℕ → Q} {δ : ℕ → Bool} (h : At d₀ r tau δ c) {v : ℕ} (hv : v ∈ d₀.Ver.live) (hδ : δ (d₀.sh.vW v) = false)
    {T : Q} (hT : GridTime c.P T) (hg : ∀ g ∈ d₀.G.live, gAt c.P d₀ r (upd tau v T) g ≠ 0)
    (hw : ∀ w ∈ d₀.W.live, wAt c.P d₀ r (upd tau v T) (δ w) w ≠ 0) :
    ∃ c', Hops c c' ∧ c'.P = c.P ∧ At d₀ r (upd tau v T) δ c' := by
  obtain ⟨hi, wt, we, ph, e⟩ := h
  obtain ⟨R, wt', ph', hR, er⟩ := changeTau_run (P := c.P) (T := T) hi (v := v) (by rw [e]; exact hv) (by rw [e]; exact ho)
    (by rw [e]; exact hwm) (by rw [e]; exact hδ)
  have hR' : R ≠ 0 := hR (by rw [e]; exact place_nonZero wt we ph hg hw)
  obtain ⟨c', h1, h2, h3⟩ := hops_of_run (m := .changeTau v T) hP hs hi
    ⟨idx_lt c.P (op := .changeTau) (by decide), by rw [e]; exact hv, hT.tauIn hP⟩ hT hR'
    (by rw [probTau_div hP]; exact one_pos) er
  refine ⟨c', h1, h2, (h1.inv hP hi).2, wt', c.d.weight * R, ph', ?_⟩
  rw [h3, e]
  rfl

/-- An instantaneous line is made continuous. -/
theorem At.cont {c : Chain Q F} (hP : c.P.Wf) (hs : SmallLattice c.P) (ho : 2 ≤ d₀.order) (hwm : d₀.worm.exist = false)
    {r : ℕ → Site} {tau : ℕ → Q} {δ : ℕ → Bool} (h : At d₀ r tau δ c) {w : ℕ} (hwl : w ∈ d₀.W.live) (hδ : δ w = true)
    {T : Q} (hT : GridTime c.P T) (hg : ∀ g ∈ d₀.G.live, gAt c.P d₀ r (upd tau (d₀.sh.wV w OUT) T) g ≠ 0)
    (hw : ∀ x ∈ d₀.W.live, wAt c.P d₀ r (upd tau (d₀.sh.wV w OUT) T) (upd δ w false x) x ≠ 0) :
    ∃ c', Hops c c' ∧ c'.P = c.P ∧ At d₀ r (upd tau (d₀.sh.wV w OUT) T) (upd δ w false) c' := by
  obtain ⟨hi, wt, we, ph, e⟩ := h
  have hwc : w ∈ c.d.W.live := by rw [e]; exact hwl
  have hδc : c.d.fl.wDelta w = true := by rw [e]; exact hδ
  obtain ⟨k1, k2⟩ := hi.delta w hwc hδc
  obtain ⟨R, wt', ph', hR, er⟩ := delta2cont_run (P := c.P) (T := T) hi hwc
    ⟨⟨by rw [e]; exact not_lt.2 ho, by rw [e]; exact hwm⟩, hδc, k1, k2⟩
  have hR' : R ≠ 0 := hR (by rw [e]; exact place_nonZero wt we ph hg hw)
  have hb := hP.beta_pos
  have hn := numOps_cast_pos c.P
  obtain ⟨c', h1, h2, h3⟩ := hops_of_run (m := .delta2cont w T) hP hs hi
    ⟨idx_lt c.P (op := .delta2cont) (by decide), hwc, hT.tauIn hP⟩ hT hR'
    (by
      rw [probOfCall_eq c.P (idx_lt c.P (op := .cont2delta) (by decide)),
        probOfCall_eq c.P (idx_lt c.P (op := .delta2cont) (by decide)), probTau]
      positivity) er
  refine ⟨c', h1, h2, (h1.inv hP hi).2, wt', c.d.weight * R, ph', ?_⟩
  rw [h3, e]
  rfl

/-- A continuous line whose ends have the same time is made instantaneous. -/
theorem At.inst {c : Chain Q F} (hP : c.P.Wf) (hs : SmallLattice c.P) (ho : 2 ≤ d₀.order) (hwm : d₀.worm.exist = false)
    {r : ℕ → Site} {tau : ℕ → Q} {δ : ℕ → Bool} (h : At d₀ r tau δ c) {w : ℕ} (hwl : w ∈ d₀.W.live) (hδ : δ w = false)
    (hk : d₀.fl.wMeas w = false ∧ d₀.fl.wGam w = false) (hT : tau (d₀.sh.wV w IN) = tau (d₀.sh.wV w OUT))
    (hg : ∀ g ∈ d₀.G.live, gAt c.P d₀ r tau g ≠ 0)
    (hw : ∀ x ∈ d₀.W.live, wAt c.P d₀ r tau (upd δ w true x) x ≠ 0) :
    ∃ c', Hops c c' ∧ c'.P = c.P ∧ At d₀ r tau (upd δ w true) c' := by
  obtain ⟨hi, wt, we, ph, e⟩ := h
  have hwc : w ∈ c.d.W.live := by rw [e]; exact hwl
  have hδc : c.d.fl.wDelta w = false := by rw [e]; exact hδ
  have hself : upd tau (d₀.sh.wV w OUT) (tau (d₀.sh.wV w IN)) = tau := by rw [hT]; exact upd_upd_self _ _
  obtain ⟨R, wt', ph', hR, er⟩ := cont2delta_run (P := c.P) hi hwc
    ⟨⟨by rw [e]; exact not_lt.2 ho, by rw [e]; exact hwm⟩, hδc, by rw [e]; exact hk.1, by rw [e]; exact hk.2⟩
  have hset : ∀ wt we ph, setDelta (place d₀ r tau δ wt we ph) w true (tau (d₀.sh.wV w IN)) =
      place d₀ r tau (upd δ w true) wt we ph := by
    intro wt we ph
    show place d₀ r (upd tau (d₀.sh.wV w OUT) (tau (d₀.sh.wV w IN))) (upd δ w true) wt we ph = _
    rw [hself]
  have hR' : R ≠ 0 := hR (by
    rw [e]
    show NonZero c.P (setDelta (place d₀ r tau δ wt we ph) w true (tau (d₀.sh.wV w IN)))
    rw [hset]
    exact place_nonZero wt we ph hg hw)
  have hb := hP.beta_pos
  have hn := numOps_cast_pos c.P
  obtain ⟨c', h1, h2, h3⟩ := hops_of_run (m := .cont2delta w) hP hs hi
    ⟨idx_lt c.P (op := .cont2delta) (by decide), hwc⟩ trivial hR'
    (by
      rw [probOfCall_eq c.P (idx_lt c.P (op := .cont2delta) (by decide)),
        probOfCall_eq c.P (idx_lt c.P (op := .delta2cont) (by decide)), probTau]
      positivity) er
  refine ⟨c', h1, h2, (h1.inv hP hi).2, wt', c.d.weight * R, ph', ?_⟩
  rw [h3]
  have e1 : setDelta c.d w true (c.d.co.tau (c.d.sh.wV w IN)) = place d₀ r tau (upd δ w true) wt we ph := by
    rw [e]; exact hset wt we ph
  rw [e1]
  rfl

theorem loop_const {r : ℕ → Site} (ht : TopoOk d₀.Ver.live d₀.G.live d₀.W.live d₀.sh)
    (h : ∀ g ∈ d₀.G.live, r (d₀.sh.gV g IN) = r (d₀.sh.gV g OUT)) {v : ℕ} (hv : v ∈ d₀.Ver.live) (k : ℕ) :
    (nextVertex d₀.sh)^[k] v ∈ d₀.Ver.live ∧ r ((nextVertex d₀.sh)^[k] v) = r v := by
  induction k with
  | zero => exact ⟨hv, rfl⟩
  | succ k ih =>
    rw [Function.iterate_succ_apply']
    have hg := ht.vG_mem _ ih.1 OUT
    refine ⟨ht.gV_mem _ hg OUT, ?_⟩
    have := h _ hg
    rw [show d₀.sh.gV (d₀.sh.vG ((nextVertex d₀.sh)^[k] v) OUT) IN = _ from ht.gV_vG _ ih.1 OUT] at this
    exact this.symm.trans ih.2

theorem probSite_div (hP : P.Wf) (a b : Site) : probSite P a / probSite P b = 1 := by
  have hx := hP.lx_pos
  have hy := hP.ly_pos
  have hs := hP.nsub_pos
  have hS : (0 : Q) < ((P.lx * P.ly : ℕ) : Q) * (P.nsub : Q) := by
    have : 0 < P.lx * P.ly := Nat.mul_pos hx hy
    exact mul_pos (by exact_mod_cast this) (by exact_mod_cast hs)
  unfold probSite
  exact div_self (by positivity)

/-- A fermion loop is moved. -/
theorem At.loop {c : Chain Q F} (hP : c.P.Wf) (hs : SmallLattice c.P) (ho : d₀.order ≠ 0) (hwm : d₀.worm.exist = false)
    (hz : NoZeros c.P d₀) {r : ℕ → Site} {tau : ℕ → Q} {δ : ℕ → Bool} (hp : Placement c.P d₀ r tau)
    (hδ : ∀ w ∈ d₀.W.live, δ w = false) (h : At d₀ r tau δ c) {v : ℕ} (hv : v ∈ d₀.Ver.live) {R : Site} (hR : SiteIn c.P R) :
    ∃ c' r', Hops c c' ∧ c'.P = c.P ∧ At d₀ r' tau δ c' ∧ Placement c.P d₀ r' tau ∧
      (∀ x, (∃ k, x = (nextVertex d₀.sh)^[k] v) → r' x = R) ∧ (∀ x, (¬ ∃ k, x = (nextVertex d₀.sh)^[k] v) → r' x = r x) := by
  obtain ⟨hi, wt, we, ph, e⟩ := h
  have ht : TopoOk d₀.Ver.live d₀.G.live d₀.W.live d₀.sh := by
    have := hi.topo
    rw [e] at this
    exact this
  have hvc : v ∈ c.d.Ver.live := by rw [e]; exact hv
  rcases rloop_run hP hi (by rw [e]; simp [place, ho, hwm]) hvc R with ⟨⟨k, hk⟩, -⟩ | ⟨vs, fw, hw, er⟩
  · rw [e] at hk
    exact absurd (loop_const ht hp.loop hv k).2 hk
  have horb : ∀ x, x ∈ vs ↔ ∃ k, x = (nextVertex d₀.sh)^[k] v := by
    intro x
    have := hw.orbit x
    rw [e] at this
    exact this
  have hmem : ∀ x ∈ vs, x ∈ d₀.Ver.live := by
    intro x hx
    have := hw.mem x hx
    rw [e] at this
    exact this
  have hstep : ∀ x ∈ vs, nextVertex d₀.sh x ∈ vs := by
    intro x hx
    have := hw.step x hx
    rw [e] at this
    exact this
  have hp' : Placement c.P d₀ (fun x => if x ∈ vs then R else r x) tau := by
    refine ⟨fun x hx => ?_, hp.time, fun g hg => ?_⟩
    · split_ifs
      · exact hR
      · exact hp.site x hx
    · have hn : nextVertex d₀.sh (d₀.sh.gV g IN) = d₀.sh.gV g OUT := by
        unfold nextVertex
        rw [show d₀.sh.vG (d₀.sh.gV g IN) OUT = g from ht.vG_gV g hg IN]
      have hiff : d₀.sh.gV g IN ∈ vs ↔ d₀.sh.gV g OUT ∈ vs := by
        refine ⟨fun q => hn ▸ hstep _ q, fun q => closed_prev ht hmem hstep (ht.gV_mem g hg IN) (by rw [hn]; exact q)⟩
      by_cases q : d₀.sh.gV g IN ∈ vs
      · rw [if_pos q, if_pos (hiff.1 q)]
      · rw [if_neg q, if_neg (fun z => q (hiff.2 z)), hp.loop g hg]
  have hratio : movedRatio c.P c.d vs R ≠ 0 := by
    unfold movedRatio
    refine div_ne_zero (mul_ne_zero ?_ ?_) (mul_ne_zero ?_ ?_) <;> rw [Finset.prod_ne_zero_iff]
    · intro g hg
      simp only [List.mem_toFinset, List.mem_map] at hg
      obtain ⟨x, hx, rfl⟩ := hg
      rw [e]
      exact hz.g _ _ hp' _ (ht.vG_mem _ (hmem x hx) OUT)
    · intro w hg
      simp only [List.mem_toFinset, List.mem_map] at hg
      obtain ⟨x, hx, rfl⟩ := hg
      have hwl := ht.vW_mem _ (hmem x hx)
      have := hz.w _ _ hp' _ hwl
      rw [← hδ _ hwl] at this
      rw [e]
      exact this
    · intro g hg
      simp only [List.mem_toFinset, List.mem_map] at hg
      obtain ⟨x, hx, rfl⟩ := hg
      exact hi.line.g_ne _ (hi.topo.vG_mem _ (hw.mem x hx) OUT)
    · intro w hg
      simp only [List.mem_toFinset, List.mem_map] at hg
      obtain ⟨x, hx, rfl⟩ := hg
      exact hi.line.w_ne _ (hi.topo.vW_mem _ (hw.mem x hx))
  obtain ⟨c', h1, h2, h3⟩ := hops_of_run (m := .changeRLoop v R) hP hs hi
    ⟨idx_lt c.P (op := .changeRLoop) (by decide), hvc, hR⟩ trivial hratio (by rw [probSite_div hP]; exact one_pos) er
  refine ⟨c', _, h1, h2, ⟨(h1.inv hP hi).2, (movedDiag c.P c.d vs R (movedRatio c.P c.d vs R)).wt,
    (movedDiag c.P c.d vs R (movedRatio c.P c.d vs R)).weight, (movedDiag c.P c.d vs R (movedRatio c.P c.d vs R)).phase, ?_⟩,
    hp', fun x hx => if_pos ((horb x).2 hx), fun x hx => if_neg (fun q => hx ((horb x).1 q))⟩
  rw [h3]
  generalize movedRatio c.P c.d vs R = ρ
  rw [e]
  rfl

/-! ### The four stages -/

theorem wAt_inst (d : Diag Q F) (r : ℕ → Site) (tau tau' : ℕ → Q) (w : ℕ) : wAt P d r tau true w = wAt P d r tau' true w := rfl

/-- All lines are made continuous. -/
theorem At.allCont {c : Chain Q F} (hP : c.P.Wf) (hs : SmallLattice c.P) (ho : 2 ≤ d₀.order) (hwm : d₀.worm.exist = false)
    (hz : NoZeros c.P d₀) {r : ℕ → Site} {tau : ℕ → Q} {δ : ℕ → Bool} (hp : Placement c.P d₀ r tau) (h : At d₀ r tau δ c)
    (s : Finset ℕ) (hsub : s ⊆ d₀.W.live) :
    ∃ c' tau' δ', Hops c c' ∧ c'.P = c.P ∧ At d₀ r tau' δ' c' ∧ Placement c.P d₀ r tau' ∧ (∀ w ∈ s, δ' w = false) := by
  have hw : ∀ w ∈ d₀.W.live, δ w = true → wAt c.P d₀ r tau true w ≠ 0 := by
    intro w hw hδ
    obtain ⟨hi, wt, we, ph, e⟩ := h
    have h1 := hi.line.w_ne w (by rw [e]; exact hw)
    rw [hi.line.w_eq w (by rw [e]; exact hw), e, ← hδ] at *
    exact h1
  suffices H : ∃ c' tau' δ', Hops c c' ∧ c'.P = c.P ∧ At d₀ r tau' δ' c' ∧ Placement c.P d₀ r tau' ∧ (∀ w ∈ s, δ' w = false) ∧
      (∀ w, δ' w = true → δ w = true) by
    obtain ⟨c', tau', δ', h1, h2, h3, h4, h5, -⟩ := H
    exact ⟨c', tau', δ', h1, h2, h3, h4, h5⟩
  induction s using Finset.induction_on with
  | empty => exact ⟨c, tau, δ, .refl c, rfl, h, hp, by simp, fun _ h => h⟩
  | insert w s hn ih =>
    obtain ⟨c', tau', δ', h1, h2, h3, h4, h5, h6⟩ := ih fun x hx => hsub (Finset.mem_insert_of_mem hx)
    have hwl := hsub (Finset.mem_insert_self w s)
    cases hδ : δ' w with
    | false =>
      refine ⟨c', tau', δ', h1, h2, h3, h4, fun x hx => ?_, h6⟩
      rcases Finset.mem_insert.1 hx with rfl | hx
      · exact hδ
      · exact h5 x hx
    | true =>
      have h4' : Placement c.P d₀ r (upd tau' (d₀.sh.wV w OUT) 0) := by
        refine ⟨h4.site, fun v hv => ?_, h4.loop⟩
        rw [upd_apply]
        split_ifs
        · exact gridTime_zero.tauIn hP
        · exact h4.time v hv
      have h6' : ∀ x, upd δ' w false x = true → δ x = true := by
        intro x hx
        rw [upd_apply] at hx
        split_ifs at hx
        exact h6 x hx
      obtain ⟨c'', k1, k2, k3⟩ := h3.cont (h2 ▸ hP) (h2 ▸ hs) ho hwm hwl hδ gridTime_zero (by rw [h2]; exact hz.g _ _ h4') (by
        intro x hx
        rw [h2]
        cases q : upd δ' w false x with
        | false => exact hz.w _ _ h4' x hx
        | true => rw [wAt_inst _ _ _ tau]; exact hw x hx (h6' x q))
      refine ⟨c'', _, _, h1.trans k1, k2.trans h2, k3, h4', fun x hx => ?_, h6'⟩
      rw [upd_apply]
      split_ifs with q
      · rfl
      · exact h5 x ((Finset.mem_insert.1 hx).resolve_left q)

/-- All times are set. -/
theorem At.allTau {c : Chain Q F} (hP : c.P.Wf) (hs : SmallLattice c.P) (ho : d₀.order ≠ 0) (hwm : d₀.worm.exist = false)
    (hz : NoZeros c.P d₀) {r : ℕ → Site} {tau : ℕ → Q} {δ : ℕ → Bool} (hp : Placement c.P d₀ r tau)
    (hδ : ∀ w ∈ d₀.W.live, δ w = false) (h : At d₀ r tau δ c) {T : ℕ → Q} (hT : ∀ v ∈ d₀.Ver.live, GridTime c.P (T v))
    (s : Finset ℕ) (hsub : s ⊆ d₀.Ver.live) :
    ∃ c' tau', Hops c c' ∧ c'.P = c.P ∧ At d₀ r tau' δ c' ∧ Placement c.P d₀ r tau' ∧ (∀ v ∈ s, tau' v = T v) := by
  induction s using Finset.induction_on with
  | empty => exact ⟨c, tau, .refl c, rfl, h, hp, by simp⟩
  | insert v s hn ih =>
    obtain ⟨c', tau', h1, h2, h3, h4, h5⟩ := ih fun x hx => hsub (Finset.mem_insert_of_mem hx)
    have hv := hsub (Finset.mem_insert_self v s)
    have h4' : Placement c.P d₀ r (upd tau' v (T v)) := by
      refine ⟨h4.site, fun x hx => ?_, h4.loop⟩
      rw [upd_apply]
      split_ifs
      · exact (hT v hv).tauIn hP
      · exact h4.time x hx
    have ht : d₀.sh.vW v ∈ d₀.W.live := by
      obtain ⟨hi, wt, we, ph, e⟩ := h3
      have := hi.topo.vW_mem v (by rw [e]; exact hv)
      rw [e] at this
      exact this
    obtain ⟨c'', k1, k2, k3⟩ := h3.tau (T := T v) (h2 ▸ hP) (h2 ▸ hs) ho hwm hv (hδ _ ht) (by rw [h2]; exact hT v hv)
      (by rw [h2]; exact hz.g _ _ h4') (by
        intro x hx
        rw [h2, hδ x hx]
        exact hz.w _ _ h4' x hx)
    refine ⟨c'', _, h1.trans k1, k2.trans h2, k3, h4', fun x hx => ?_⟩
    rw [upd_apply]
    split_ifs with q
    · rw [q]
    · exact h5 x ((Finset.mem_insert.1 hx).resolve_left q)

/-- All sites are set. -/
theorem At.allSites {c : Chain Q F} (hP : c.P.Wf) (hs : SmallLattice c.P) (ho : d₀.order ≠ 0) (hwm : d₀.worm.exist = false)
    (hz : NoZeros c.P d₀) {r : ℕ → Site} {tau : ℕ → Q} {δ : ℕ → Bool} (hp : Placement c.P d₀ r tau)
    (hδ : ∀ w ∈ d₀.W.live, δ w = false) (h : At d₀ r tau δ c) {R : ℕ → Site} (hR : ∀ v ∈ d₀.Ver.live, SiteIn c.P (R v))
    (hl : ∀ g ∈ d₀.G.live, R (d₀.sh.gV g IN) = R (d₀.sh.gV g OUT)) (s : Finset ℕ) (hsub : s ⊆ d₀.Ver.live) :
    ∃ c' r', Hops c c' ∧ c'.P = c.P ∧ At d₀ r' tau δ c' ∧ Placement c.P d₀ r' tau ∧ (∀ v ∈ s, r' v = R v) := by
  have ht : TopoOk d₀.Ver.live d₀.G.live d₀.W.live d₀.sh := by
    obtain ⟨hi, wt, we, ph, e⟩ := h
    have := hi.topo
    rw [e] at this
    exact this
  induction s using Finset.induction_on with
  | empty => exact ⟨c, r, .refl c, rfl, h, hp, by simp⟩
  | insert v s hn ih =>
    obtain ⟨c', r', h1, h2, h3, h4, h5⟩ := ih fun x hx => hsub (Finset.mem_insert_of_mem hx)
    have hv := hsub (Finset.mem_insert_self v s)
    obtain ⟨c'', r'', k1, k2, k3, k4, k5, k6⟩ := h3.loop (h2 ▸ hP) (h2 ▸ hs) ho hwm (h2 ▸ hz) (h2 ▸ h4) hδ hv
      (by rw [h2]; exact hR v hv)
    refine ⟨c'', r'', h1.trans k1, k2.trans h2, k3, h2 ▸ k4, fun x hx => ?_⟩
    by_cases q : ∃ k, x = (nextVertex d₀.sh)^[k] v
    · rw [k5 x q]
      obtain ⟨k, rfl⟩ := q
      exact (loop_const ht hl hv k).2.symm
    · rw [k6 x q]
      refine h5 x ((Finset.mem_insert.1 hx).resolve_left ?_)
      rintro rfl
      exact q ⟨0, rfl⟩

/-- The instantaneous lines are set. -/
theorem At.allInst {c : Chain Q F} (hP : c.P.Wf) (hs : SmallLattice c.P) (ho : 2 ≤ d₀.order) (hwm : d₀.worm.exist = false)
    (hz : NoZeros c.P d₀) {r : ℕ → Site} {tau : ℕ → Q} {δ : ℕ → Bool} (hp : Placement c.P d₀ r tau)
    (hδ : ∀ w ∈ d₀.W.live, δ w = false) (h : At d₀ r tau δ c) {η : ℕ → Bool}
    (hk : ∀ w ∈ d₀.W.live, η w = true → d₀.fl.wMeas w = false ∧ d₀.fl.wGam w = false)
    (hT : ∀ w ∈ d₀.W.live, η w = true → tau (d₀.sh.wV w IN) = tau (d₀.sh.wV w OUT))
    (hn : ∀ w ∈ d₀.W.live, η w = true → wAt c.P d₀ r tau true w ≠ 0) (s : Finset ℕ) (hsub : s ⊆ d₀.W.live) :
    ∃ c' δ', Hops c c' ∧ c'.P = c.P ∧ At d₀ r tau δ' c' ∧ (∀ w ∈ s, δ' w = η w) ∧ (∀ w ∈ d₀.W.live, w ∉ s → δ' w = false) := by
  induction s using Finset.induction_on with
  | empty => exact ⟨c, δ, .refl c, rfl, h, by simp, fun w hw _ => hδ w hw⟩
  | insert w s hns ih =>
    obtain ⟨c', δ', h1, h2, h3, h4, h5⟩ := ih fun x hx => hsub (Finset.mem_insert_of_mem hx)
    have hwl := hsub (Finset.mem_insert_self w s)
    cases q : η w with
    | false =>
      refine ⟨c', δ', h1, h2, h3, fun x hx => ?_, fun x hx hxs => h5 x hx fun z => hxs (Finset.mem_insert_of_mem z)⟩
      rcases Finset.mem_insert.1 hx with rfl | hx
      · rw [q]; exact h5 x hwl hns
      · exact h4 x hx
    | true =>
      obtain ⟨c'', k1, k2, k3⟩ := h3.inst (h2 ▸ hP) (h2 ▸ hs) ho hwm hwl (h5 w hwl hns) (hk w hwl q) (hT w hwl q)
        (by rw [h2]; exact hz.g _ _ hp) (by
          intro x hx
          rw [h2]
          cases z : upd δ' w true x with
          | false => exact hz.w _ _ hp x hx
          | true =>
            refine hn x hx ?_
            rw [upd_apply] at z
            split_ifs at z with y
            · rw [y, q]
            · by_cases hxs : x ∈ s
              · rw [← h4 x hxs]; exact z
              · rw [h5 x hx hxs] at z; cases z)
      refine ⟨c'', _, h1.trans k1, k2.trans h2, k3, fun x hx => ?_, fun x hx hxs => ?_⟩
      · rw [upd_apply]
        split_ifs with y
        · rw [y, q]
        · exact h4 x ((Finset.mem_insert.1 hx).resolve_left y)
      · rw [upd_ne _ _ (fun y => hxs (by rw [y]; exact Finset.mem_insert_self _ _))]
        exact h5 x hx fun z => hxs (Finset.mem_insert_of_mem z)

theorem wAt_congr (ht : TopoOk d₀.Ver.live d₀.G.live d₀.W.live d₀.sh) {r r' : ℕ → Site} {tau tau' : ℕ → Q}
    (hr : ∀ v ∈ d₀.Ver.live, r' v = r v) (hT : ∀ v ∈ d₀.Ver.live, tau' v = tau v) (δ : Bool) {w : ℕ} (hw : w ∈ d₀.W.live) :
    wAt P d₀ r' tau' δ w = wAt P d₀ r tau δ w := by
  simp only [wAt, wExpected, hr _ (ht.wV_mem w hw _), hT _ (ht.wV_mem w hw _)]

/-- Times and sites are set while all lines are continuous. -/
theorem At.set {c : Chain Q F} (hP : c.P.Wf) (hs : SmallLattice c.P) (ho : d₀.order ≠ 0) (hwm : d₀.worm.exist = false)
    (hz : NoZeros c.P d₀) {r : ℕ → Site} {tau : ℕ → Q} {δ : ℕ → Bool} (hp : Placement c.P d₀ r tau)
    (hδ : ∀ w ∈ d₀.W.live, δ w = false) (h : At d₀ r tau δ c) {R : ℕ → Site} {T : ℕ → Q} {η : ℕ → Bool} (hg : Target c.P d₀ R T η) :
    ∃ c' r' tau', Hops c c' ∧ c'.P = c.P ∧ At d₀ r' tau' δ c' ∧ Placement c.P d₀ r' tau' ∧ (∀ v ∈ d₀.Ver.live, r' v = R v) ∧
      (∀ v ∈ d₀.Ver.live, tau' v = T v) := by
  obtain ⟨c₁, tau', h1, h2, h3, h4, h5⟩ := h.allTau hP hs ho hwm hz hp hδ hg.time _ (Finset.Subset.refl _)
  obtain ⟨c₂, r', k1, k2, k3, k4, k5⟩ := h3.allSites (R := R) (h2 ▸ hP) (h2 ▸ hs) ho hwm (h2 ▸ hz) (h2 ▸ h4) hδ
    (by rw [h2]; exact hg.site) hg.loop _ (Finset.Subset.refl _)
  exact ⟨c₂, r', tau', h1.trans k1, k2.trans h2, k3, h2 ▸ k4, k5, h5⟩

/-- All four stages. -/
theorem At.goto {c : Chain Q F} (hP : c.P.Wf) (hs : SmallLattice c.P) (ho : 2 ≤ d₀.order) (hwm : d₀.worm.exist = false)
    (hz : NoZeros c.P d₀) {r : ℕ → Site} {tau : ℕ → Q} {δ : ℕ → Bool} (hp : Placement c.P d₀ r tau)
    (h : At d₀ r tau δ c) {R : ℕ → Site} {T : ℕ → Q} {η : ℕ → Bool} (hg : Target c.P d₀ R T η) :
    ∃ c' r' tau' δ', Hops c c' ∧ c'.P = c.P ∧ At d₀ r' tau' δ' c' ∧ (∀ v ∈ d₀.Ver.live, r' v = R v) ∧
      (∀ v ∈ d₀.Ver.live, tau' v = T v) ∧ (∀ w ∈ d₀.W.live, δ' w = η w) := by
  have ht : TopoOk d₀.Ver.live d₀.G.live d₀.W.live d₀.sh := by
    obtain ⟨hi, wt, we, ph, e⟩ := h
    have := hi.topo
    rw [e] at this
    exact this
  obtain ⟨c₁, tau₁, δ₁, a1, a2, a3, a4, a5⟩ := h.allCont hP hs ho hwm hz hp _ (Finset.Subset.refl _)
  obtain ⟨c₂, r₂, tau₂, b1, b2, b3, b4, b5, b6⟩ := a3.set (a2 ▸ hP) (a2 ▸ hs) (by omega) hwm (a2 ▸ hz) (a2 ▸ a4) a5
    (R := R) (T := T) (η := η) (by rw [a2]; exact hg)
  have e2 := b2.trans a2
  obtain ⟨c₃, δ₃, k1, k2, k3, k4, -⟩ := b3.allInst (η := η) (e2 ▸ hP) (e2 ▸ hs) ho hwm (e2 ▸ hz) (by rw [e2, ← a2]; exact b4) a5 hg.plain
    (fun w hw q => by rw [b6 _ (ht.wV_mem w hw _), b6 _ (ht.wV_mem w hw _)]; exact hg.same w hw q)
    (fun w hw q => by rw [e2, wAt_congr ht b5 b6 true hw]; exact hg.weight w hw q) _ (Finset.Subset.refl _)
  exact ⟨c₃, r₂, tau₂, δ₃, (a1.trans b1).trans k1, k2.trans e2, k3, b5, b6, k4⟩

/-! ### The measuring line -/

theorem OtherMark.trans {a b c : Diag Q F} (h : OtherMark a b) (h' : OtherMark b c) : OtherMark a c := by
  unfold OtherMark at *
  rw [h'] at ⊢
  rw [h]

theorem MarkNoZeros.keep {d d' : Diag Q F} (h : OtherMark d d') (hz : MarkNoZeros P d) : MarkNoZeros P d' := by
  unfold OtherMark at h
  rw [h]
  exact ⟨hz.g, hz.w⟩

/-- An interaction line becomes the measuring line. -/
theorem mark_g2w {c : Chain Q F} (hP : c.P.Wf) (hs : SmallLattice c.P) (hf : 0 < c.P.polarRW) (hi : Inv c.P c.d)
    (ho : c.d.order ≠ 0) (hwm : c.d.worm.exist = false) (hγ : c.d.hasGamma = 0) (hz : MarkNoZeros c.P c.d) (hm : c.d.measG = true)
    {w : ℕ} (hw : w ∈ c.d.W.live) (hδ : c.d.fl.wDelta w = false) :
    ∃ c', Hops c c' ∧ c'.P = c.P ∧ OtherMark c.d c'.d ∧ c'.d.measG = false ∧ c'.d.wMeasure = w := by
  obtain ⟨R, wt, ph, hR, er⟩ := g2w_run (P := c.P) hi hw ho hwm hm hγ hδ
  have hn := numOps_cast_pos c.P
  obtain ⟨c', h1, h2, h3⟩ := hops_of_run (m := .g2w w) hP hs hi ⟨idx_lt c.P (op := .g2w) (by decide), hw⟩ trivial
    (hR ⟨fun g hg => hz.g g hg ((setMeasW c.d w).fl.gMeas g), fun x hx => hz.w x hx ((setMeasW c.d w).fl.wMeas x)⟩)
    (by
      rw [probOfCall_eq c.P (idx_lt c.P (op := .w2g) (by decide)), probOfCall_eq c.P (idx_lt c.P (op := .g2w) (by decide))]
      positivity) er
  refine ⟨c', h1, h2, ?_, by rw [h3]; rfl, by rw [h3]; rfl⟩
  rw [h3]
  rfl

/-- A fermion line becomes the measuring line. -/
theorem mark_w2g {c : Chain Q F} (hP : c.P.Wf) (hs : SmallLattice c.P) (hf : 0 < c.P.polarRW) (hi : Inv c.P c.d)
    (ho : c.d.order ≠ 0) (hwm : c.d.worm.exist = false) (hγ : c.d.hasGamma = 0) (hz : MarkNoZeros c.P c.d) (hm : c.d.measG = false)
    {g : ℕ} (hg : g ∈ c.d.G.live) :
    ∃ c', Hops c c' ∧ c'.P = c.P ∧ OtherMark c.d c'.d ∧ c'.d.measG = true ∧ c'.d.gMeasure = g := by
  obtain ⟨R, wt, ph, hR, er⟩ := w2g_run (P := c.P) hi hg ho hwm hm hγ
  have hn := numOps_cast_pos c.P
  obtain ⟨c', h1, h2, h3⟩ := hops_of_run (m := .w2g g) hP hs hi ⟨idx_lt c.P (op := .w2g) (by decide), hg⟩ trivial
    (hR ⟨fun x hx => hz.g x hx ((setMeasG c.d g).fl.gMeas x), fun x hx => hz.w x hx ((setMeasG c.d g).fl.wMeas x)⟩)
    (by
      rw [probOfCall_eq c.P (idx_lt c.P (op := .w2g) (by decide)), probOfCall_eq c.P (idx_lt c.P (op := .g2w) (by decide))]
      positivity) er
  refine ⟨c', h1, h2, ?_, by rw [h3]; rfl, by rw [h3]; rfl⟩
  rw [h3]
  rfl

end
end Feyn
