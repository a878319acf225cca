import Verif.Proof.RevTau

/-!
# Detailed balance: jumps between order 0 and order 1, composite lines
-/

set_option linter.unusedSectionVars false
set_option linter.unusedSimpArgs false

namespace Feyn

section
variable {Q F : Type} [Field Q] [LinearOrder Q] [IsStrictOrderedRing Q] [Field F]
variable {P : Params Q F} {d d' d'' : Diag Q F}

/-! ### Order 0 -/

/-- Acceptance factor of the jump to order 0. -/
def zeroC (P : Params Q F) (d : Diag Q F) : Q :=
  (probOfCall P .backToOrder1 * probSite P (d.co.r (d.Ver.slot 0)) * probTau P (d.co.tau (d.Ver.slot 0))
    * probTau P (d.co.tau (d.Ver.slot 1)) * (1 / 2) * (1 / 2) * P.orderRW.getD 0 0) /
    (probOfCall P .toOrder0 * P.orderRW.getD 1 0)

/-- Acceptance factor of the jump back to order 1. -/
def oneC (P : Params Q F) (r : Site) (t1 t2 : Q) : Q :=
  probOfCall P .toOrder0 * P.orderRW.getD 1 0 / (probOfCall P .backToOrder1 * P.orderRW.getD 0 0
    * probSite P r * probTau P t1 * probTau P t2 * (1 / 2) * (1 / 2))

/-- The discrete effect of the jump back to order 1. -/
def setOne (d : Diag Q F) (r : Site) (t1 t2 : Q) (s1 s2 : Spin) : Diag Q F :=
  { d with
    order := 1
    co := {
      r := upd (upd d.co.r (d.Ver.slot 0) r) (d.Ver.slot 1) r
      tau := upd (upd d.co.tau (d.Ver.slot 0) t1) (d.Ver.slot 1) t2
      spin := upd (upd d.co.spin (d.Ver.slot 0) fun e => if e = OUT then s1 else s2) (d.Ver.slot 1)
        fun e => if e = OUT then s2 else s1 } }

/-- When the jump to order 0 is proposed. -/
def ZeroOk (d : Diag Q F) : Prop :=
  (d.worm.exist = false ∧ d.order = 1) ∧ d.hasGamma = 0 ∧ d.co.r (d.Ver.slot 0) = d.co.r (d.Ver.slot 1)

theorem toOrder0_skip (h : Inv P d) (hc : ¬ ZeroOk d) (u : Q) : (Move.toOrder0 : Move Q).run P d u = skip d := by
  simp only [Move.run]
  by_cases c : d.worm.exist = true ∨ d.order ≠ 1
  · rw [if_pos c]
  rw [if_neg c]
  by_cases c' : d.hasGamma ≠ 0
  · rw [if_pos c']
  rw [if_neg c']
  simp only [not_or, Bool.not_eq_true, not_not] at c c'
  have hn : d.W.avail = 1 := by rw [← h.order_eq (by omega), c.2]
  obtain ⟨h1, h2, -, -, g1, g2⟩ := h.pair hn
  unfold toOrder0Core
  simp only [g1, g2, deref_live h1, deref_live h2, Res.ok_bind]
  rw [if_pos (fun q => hc ⟨c, c', q⟩)]

theorem toOrder0_run (hP : P.Wf) (h : Inv P d) (hc : ZeroOk d) :
    ∃ ph, ∀ u, (Move.toOrder0 : Move Q).run P d u =
      metropolis d d (P.mod (normWeight P / d.weight) * zeroC P d) u
        (.ok { d with order := 0, weight := normWeight P, phase := ph }) := by
  obtain ⟨⟨hw, ho⟩, hγ, hr⟩ := hc
  have hn : d.W.avail = 1 := by rw [← h.order_eq (by omega), ho]
  obtain ⟨h1, h2, -, -, g1, g2⟩ := h.pair hn
  refine ⟨d.phase * P.ph (normWeight P / d.weight), fun u => ?_⟩
  simp only [Move.run]
  rw [if_neg (by simp [hw, ho]), if_neg (by simp [hγ])]
  unfold toOrder0Core
  simp only [g1, g2, deref_live h1, deref_live h2, Res.ok_bind, orderRW_getD hP (Nat.zero_le _),
    orderRW_getD hP hP.one_le]
  rw [if_neg (not_not.2 hr)]
  rfl

theorem back_skip {r : Site} {t1 t2 : Q} {s1 s2 : Spin} (hc : ¬ (d.hasGamma = 0 ∧ d.worm.exist = false ∧ d.order = 0))
    (u : Q) : (Move.backToOrder1 r t1 t2 s1 s2).run P d u = skip d := by
  simp only [Move.run]
  by_cases c' : d.hasGamma ≠ 0
  · rw [if_pos c']
  rw [if_neg c']
  by_cases c : d.worm.exist = true ∨ d.order ≠ 0
  · rw [if_pos c]
  simp only [not_or, Bool.not_eq_true, not_not] at c c'
  exact absurd ⟨c', c⟩ hc

theorem back_run (hP : P.Wf) (h : Inv P d) {r : Site} {t1 t2 : Q} {s1 s2 : Spin}
    (hc : d.hasGamma = 0 ∧ d.worm.exist = false ∧ d.order = 0) :
    ∃ R : F, ∃ wt ph, (NonZero P (setOne d r t1 t2 s1 s2) → R ≠ 0) ∧
      ∀ u, (Move.backToOrder1 r t1 t2 s1 s2).run P d u =
      metropolis d d (P.mod R * oneC P r t1 t2) u
        (.ok { setOne d r t1 t2 s1 s2 with weight := d.weight * R, phase := ph, wt := wt }) := by
  obtain ⟨hγ, hw, ho⟩ := hc
  have hn : d.W.avail = 1 := by
    have := h.count.n_pos
    rcases h.count.order with q | q
    · omega
    · exact q.2.1
  obtain ⟨h1, h2, hne, hV, g1, g2⟩ := h.pair hn
  obtain ⟨t1', t2', hgne, hG, hW, hfar⟩ := h.pairTopo hn hw h1 h2 hne hV
  have hm1 := h.topo.vG_mem _ h1 OUT
  have hm2 := h.topo.vG_mem _ h2 OUT
  have hmw := h.topo.vW_mem _ h1
  have hgg := h.noGamG (by omega)
  have hwg := h.noGamW (by omega)
  have hnw := h.noWorm hw
  have hdm : d.fl.wDelta (d.sh.vW (d.Ver.slot 0)) = true → d.fl.wMeas (d.sh.vW (d.Ver.slot 0)) = false :=
    fun e => (h.delta _ hmw e).1
  have b1 : d.sh.gV (d.sh.vG (d.Ver.slot 0) OUT) IN = d.Ver.slot 0 := h.topo.gV_vG _ h1 OUT
  have b2 : d.sh.gV (d.sh.vG (d.Ver.slot 1) OUT) IN = d.Ver.slot 1 := h.topo.gV_vG _ h2 OUT
  have hmain : ∃ R : F, ∃ wt ph, (NonZero P (setOne d r t1 t2 s1 s2) → R ≠ 0) ∧
      ∀ u, backToOrder1Core P d r t1 t2 s1 s2 u =
      metropolis d d (P.mod R * oneC P r t1 t2) u
        (.ok { setOne d r t1 t2 s1 s2 with weight := d.weight * R, phase := ph, wt := wt }) := by
    unfold backToOrder1Core
    simp only [g1, g2, deref_live h1, deref_live h2, deref_live hm1, deref_live hm2, deref_live hmw,
      Res.ok_bind, orderRW_getD hP (Nat.zero_le _), orderRW_getD hP hP.one_le]
    refine ⟨_, _, _, ?_, fun u => rfl⟩
    rintro ⟨n1, n2⟩
    have m1 := n1 _ hm1
    have m2 := n1 _ hm2
    have m3 := n2 _ hmw
    have sp1 : (setOne d r t1 t2 s1 s2).co.spin (d.Ver.slot 0) = fun e => if e = OUT then s1 else s2 := by
      show upd (upd _ _ _) _ _ _ = _
      rw [upd_ne _ _ hne, upd_same]
    have sp2 : (setOne d r t1 t2 s1 s2).co.spin (d.Ver.slot 1) = fun e => if e = OUT then s2 else s1 := by
      show upd (upd _ _ _) _ _ _ = _
      rw [upd_same]
    have rr1 : (setOne d r t1 t2 s1 s2).co.r (d.Ver.slot 0) = r := by
      show upd (upd _ _ _) _ _ _ = _
      rw [upd_ne _ _ hne, upd_same]
    have rr2 : (setOne d r t1 t2 s1 s2).co.r (d.Ver.slot 1) = r := by
      show upd (upd _ _ _) _ _ _ = _
      rw [upd_same]
    have tt1 : (setOne d r t1 t2 s1 s2).co.tau (d.Ver.slot 0) = t1 := by
      show upd (upd _ _ _) _ _ _ = _
      rw [upd_ne _ _ hne, upd_same]
    have tt2 : (setOne d r t1 t2 s1 s2).co.tau (d.Ver.slot 1) = t2 := by
      show upd (upd _ _ _) _ _ _ = _
      rw [upd_same]
    have hL := wW_line h.topo h1 P d.ext (setOne d r t1 t2 s1 s2).co.r (setOne d r t1 t2 s1 s2).co.tau
      (setOne d r t1 t2 s1 s2).co.spin false _ _ false hdm
    rw [hfar, rr1, rr2, tt1, tt2, sp1, sp2] at hL
    have q1 : gW0 P d.ext r r t1 t2 s1 s1 (d.fl.gMeas (d.sh.vG (d.Ver.slot 0) OUT)) false ≠ 0 := by
      unfold gExpected at m1
      rw [show (setOne d r t1 t2 s1 s2).sh = d.sh from rfl, b1, t1', rr1, rr2, tt1, tt2, sp1, sp2,
        show (setOne d r t1 t2 s1 s2).fl = d.fl from rfl,
        show (setOne d r t1 t2 s1 s2).ext = d.ext from rfl, hgg _ hm1] at m1
      simpa using m1
    have q2 : gW0 P d.ext r r t2 t1 s2 s2 (d.fl.gMeas (d.sh.vG (d.Ver.slot 1) OUT)) false ≠ 0 := by
      unfold gExpected at m2
      rw [show (setOne d r t1 t2 s1 s2).sh = d.sh from rfl, b2, t2', rr1, rr2, tt1, tt2, sp1, sp2,
        show (setOne d r t1 t2 s1 s2).fl = d.fl from rfl,
        show (setOne d r t1 t2 s1 s2).ext = d.ext from rfl, hgg _ hm2] at m2
      simpa using m2
    rw [hL]
    unfold wExpected at m3
    rw [show (setOne d r t1 t2 s1 s2).sh = d.sh from rfl,
        show (setOne d r t1 t2 s1 s2).fl = d.fl from rfl, hwg _ hmw, hnw _ hmw] at m3
    exact div_ne_zero (mul_ne_zero (mul_ne_zero (mul_ne_zero (by norm_num) q1) q2) m3) (h.weight_ne hP)
  obtain ⟨R, wt, ph, hR, e⟩ := hmain
  refine ⟨R, wt, ph, hR, fun u => ?_⟩
  simp only [Move.run]
  rw [if_neg (by simp [hγ]), if_neg (by simp [hw, ho])]
  exact e u

theorem toOrder0_bal (hP : P.Wf) (hf : PosFactors P) (h : Inv P d) (h' : Inv P d') {u p : Q} (hu : 0 ≤ u)
    {out : Out Q F} (e : (Move.toOrder0 : Move Q).run P d u = .ok out) (ha : out.tag = .accept)
    (hd : out.d = d') (hp : out.prob = p) : Bal P d Move.toOrder0 d' p := by
  by_cases hc : ZeroOk d
  swap
  · rw [toOrder0_skip h hc] at e; exact absurd ha (fun q => skip_not_accept e q)
  obtain ⟨ph, er⟩ := toOrder0_run hP h hc
  rw [er] at e
  have hd' := (metropolis_accept e ha).2.1
  rw [hd] at hd'
  subst hd'
  obtain ⟨⟨hw, ho⟩, hγ, hr⟩ := hc
  have hn : d.W.avail = 1 := by rw [← h.order_eq (by omega), ho]
  obtain ⟨h1, h2, hne, hV, g1, g2⟩ := h.pair hn
  obtain ⟨t1, t2, hgne, hG, hW, hfar⟩ := h.pairTopo hn hw h1 h2 hne hV
  have b1 : d.sh.gV (d.sh.vG (d.Ver.slot 0) OUT) IN = d.Ver.slot 0 := h.topo.gV_vG _ h1 OUT
  have b2 : d.sh.gV (d.sh.vG (d.Ver.slot 1) OUT) IN = d.Ver.slot 1 := h.topo.gV_vG _ h2 OUT
  obtain ⟨R', wt', ph', hR', er'⟩ := back_run (P := P) (r := d.co.r (d.Ver.slot 0)) (t1 := d.co.tau (d.Ver.slot 0))
    (t2 := d.co.tau (d.Ver.slot 1)) (s1 := d.co.spin (d.Ver.slot 0) OUT) (s2 := d.co.spin (d.Ver.slot 1) OUT)
    hP h' ⟨hγ, hw, rfl⟩
  have hcells : ∀ b, SameCells d { setOne { d with order := 0, weight := normWeight P, phase := ph }
      (d.co.r (d.Ver.slot 0)) (d.co.tau (d.Ver.slot 0)) (d.co.tau (d.Ver.slot 1)) (d.co.spin (d.Ver.slot 0) OUT)
      (d.co.spin (d.Ver.slot 1) OUT) with weight := b, phase := ph', wt := wt' } := by
    intro b
    constructor <;> first
      | (intros; rfl)
      | skip
    · exact ho.symm
    · intro _ x hx
      rw [hV] at hx
      simp only [Finset.mem_insert, Finset.mem_singleton] at hx
      show upd (upd d.co.r _ _) _ _ x = d.co.r x
      rcases hx with rfl | rfl
      · rw [upd_ne _ _ hne, upd_same]
      · rw [upd_same, hr]
    · intro _ x hx
      rw [hV] at hx
      simp only [Finset.mem_insert, Finset.mem_singleton] at hx
      show upd (upd d.co.tau _ _) _ _ x = d.co.tau x
      rcases hx with rfl | rfl
      · rw [upd_ne _ _ hne, upd_same]
      · rw [upd_same]
    · intro _ x hx
      rw [hV] at hx
      simp only [Finset.mem_insert, Finset.mem_singleton] at hx
      show upd (upd d.co.spin _ _) _ _ x = d.co.spin x
      have k1 := h.spin _ (h.topo.vG_mem _ h1 OUT)
      have k2 := h.spin _ (h.topo.vG_mem _ h2 OUT)
      rw [b1, t1] at k1
      rw [b2, t2] at k2
      rcases hx with rfl | rfl
      · rw [upd_ne _ _ hne, upd_same]
        funext e
        cases e
        · exact k2
        · rfl
      · rw [upd_same]
        funext e
        cases e
        · exact k1
        · rfl
  have r0 := hf.order_pos hP (Nat.zero_le P.maxOrd)
  have r1 := hf.order_pos hP hP.one_le
  have hb := hP.beta_pos
  have hn0 := numOps_cast_pos P
  have hx := hP.lx_pos
  have hy := hP.ly_pos
  have hs := hP.nsub_pos
  have hS : (0 : Q) < ((P.lx * P.ly : ℕ) : Q) * (P.nsub : Q) := by
    have : 0 < P.lx * P.ly := Nat.mul_pos hx hy
    exact mul_pos (by exact_mod_cast this) (by exact_mod_cast hs)
  have hS' : (0 : Q) < ((P.lx * P.ly * P.nsub : ℕ) : Q) := by
    rw [Nat.cast_mul]; exact hS
  refine bal_core hP h h' hu e ha hd hp ?_ ?_ ?_ ⟨idx_lt P (op := .backToOrder1) (by decide), ?_⟩
    ?_ er' rfl (hR' ?_) (hcells _).parts ?_
  · exact (mul_div_cancel₀ _ (h.weight_ne hP)).symm
  · unfold zeroC
    rw [probOfCall_eq P (idx_lt P (op := .backToOrder1) (by decide)),
      probOfCall_eq P (idx_lt P (op := .toOrder0) (by decide))]
    simp only [probTau, probSite]; positivity
  · unfold zeroC oneC
    rw [probOfCall_eq P (idx_lt P (op := .backToOrder1) (by decide)),
      probOfCall_eq P (idx_lt P (op := .toOrder0) (by decide))]
    simp only [probTau, probSite]; field_simp
  · exact ⟨(h.dom _ h1).1, (h.dom _ h1).2, (h.dom _ h2).2⟩
  · rfl
  · exact (hcells 0).nonZero h (by omega)
  · unfold zeroC
    rw [probOfCall_eq P (idx_lt P (op := .backToOrder1) (by decide)),
      probOfCall_eq P (idx_lt P (op := .toOrder0) (by decide))]
    simp only [Move.density, Move.rev, sector, hγ, hw, hn, ho, probTau, probSite]
    rw [Nat.cast_mul _ P.nsub]
    field_simp

theorem back_bal (hP : P.Wf) (hf : PosFactors P) (h : Inv P d) (h' : Inv P d') {r : Site} {t1 t2 : Q} {s1 s2 : Spin}
    {u p : Q} (hu : 0 ≤ u)
    {out : Out Q F} (e : (Move.backToOrder1 r t1 t2 s1 s2).run P d u = .ok out) (ha : out.tag = .accept)
    (hd : out.d = d') (hp : out.prob = p) : Bal P d (Move.backToOrder1 r t1 t2 s1 s2) d' p := by
  by_cases hc : d.hasGamma = 0 ∧ d.worm.exist = false ∧ d.order = 0
  swap
  · rw [back_skip hc] at e; exact absurd ha (fun q => skip_not_accept e q)
  obtain ⟨R, wt, ph, -, er⟩ := back_run (P := P) (r := r) (t1 := t1) (t2 := t2) (s1 := s1) (s2 := s2) hP h hc
  rw [er] at e
  have hd' := (metropolis_accept e ha).2.1
  rw [hd] at hd'
  subst hd'
  obtain ⟨hγ, hw, ho⟩ := hc
  have hn : d.W.avail = 1 := by
    have := h.count.n_pos
    rcases h.count.order with q | q
    · omega
    · exact q.2.1
  obtain ⟨h1, h2, hne, hV, g1, g2⟩ := h.pair hn
  have rr1 : (setOne d r t1 t2 s1 s2).co.r (d.Ver.slot 0) = r := by
    show upd (upd _ _ _) _ _ _ = _
    rw [upd_ne _ _ hne, upd_same]
  have rr2 : (setOne d r t1 t2 s1 s2).co.r (d.Ver.slot 1) = r := by
    show upd (upd _ _ _) _ _ _ = _
    rw [upd_same]
  have tt1 : (setOne d r t1 t2 s1 s2).co.tau (d.Ver.slot 0) = t1 := by
    show upd (upd _ _ _) _ _ _ = _
    rw [upd_ne _ _ hne, upd_same]
  have tt2 : (setOne d r t1 t2 s1 s2).co.tau (d.Ver.slot 1) = t2 := by
    show upd (upd _ _ _) _ _ _ = _
    rw [upd_same]
  have sp1 : (setOne d r t1 t2 s1 s2).co.spin (d.Ver.slot 0) OUT = s1 := by
    show upd (upd d.co.spin _ _) _ _ _ _ = _
    rw [upd_ne _ _ hne, upd_same]; rfl
  have sp2 : (setOne d r t1 t2 s1 s2).co.spin (d.Ver.slot 1) OUT = s2 := by
    show upd (upd d.co.spin _ _) _ _ _ _ = _
    rw [upd_same]; rfl
  obtain ⟨ph', er'⟩ := toOrder0_run hP h' ⟨⟨hw, rfl⟩, hγ, rr1.trans rr2.symm⟩
  have hcells : SameCells d { setOne d r t1 t2 s1 s2 with
      order := 0, weight := normWeight P, phase := ph', wt := wt } := by
    constructor <;> first
      | (intros; rfl)
      | skip
    · exact ho.symm
    all_goals (intro q; exact absurd ho q)
  have r0 := hf.order_pos hP (Nat.zero_le P.maxOrd)
  have r1 := hf.order_pos hP hP.one_le
  have hb := hP.beta_pos
  have hn0 := numOps_cast_pos P
  have hx := hP.lx_pos
  have hy := hP.ly_pos
  have hs := hP.nsub_pos
  have hS : (0 : Q) < ((P.lx * P.ly : ℕ) : Q) * (P.nsub : Q) := by
    have : 0 < P.lx * P.ly := Nat.mul_pos hx hy
    exact mul_pos (by exact_mod_cast this) (by exact_mod_cast hs)
  have hS' : (0 : Q) < ((P.lx * P.ly * P.nsub : ℕ) : Q) := by
    rw [Nat.cast_mul]; exact hS
  refine bal_core hP h h' hu e ha hd hp rfl ?_ ?_ ⟨idx_lt P (op := .toOrder0) (by decide), trivial⟩
    ?_ er' (mul_div_cancel₀ _ (h'.weight_ne hP)).symm (div_ne_zero hP.norm_ne (h'.weight_ne hP)) hcells.parts ?_
  · unfold oneC
    rw [probOfCall_eq P (idx_lt P (op := .backToOrder1) (by decide)),
      probOfCall_eq P (idx_lt P (op := .toOrder0) (by decide))]
    simp only [probTau, probSite]; positivity
  · unfold zeroC oneC
    rw [probOfCall_eq P (idx_lt P (op := .backToOrder1) (by decide)),
      probOfCall_eq P (idx_lt P (op := .toOrder0) (by decide))]
    simp only [probTau, probSite]; field_simp
  · show Move.backToOrder1 ((setOne d r t1 t2 s1 s2).co.r (d.Ver.slot 0)) ((setOne d r t1 t2 s1 s2).co.tau (d.Ver.slot 0))
      ((setOne d r t1 t2 s1 s2).co.tau (d.Ver.slot 1)) ((setOne d r t1 t2 s1 s2).co.spin (d.Ver.slot 0) OUT)
      ((setOne d r t1 t2 s1 s2).co.spin (d.Ver.slot 1) OUT) = _
    rw [rr1, tt1, tt2, sp1, sp2]
  · unfold oneC
    rw [probOfCall_eq P (idx_lt P (op := .backToOrder1) (by decide)),
      probOfCall_eq P (idx_lt P (op := .toOrder0) (by decide))]
    simp only [Move.density, Move.rev, sector, setOne, hγ, hw, hn, ho, probTau, probSite]
    rw [Nat.cast_mul _ P.nsub]
    field_simp

/-! ### Composite fermion line -/

/-- The discrete effect of `JumpToGGGammaG`. -/
def setGamG (d : Diag Q F) (g : ℕ) (T : Q) : Diag Q F :=
  { d with
    ext := ⟨T, d.co.r (d.sh.gV g IN), UP⟩
    hasGamma := 1
    vin := .g g IN
    vout := .g g OUT
    fl := { d.fl with gGam := upd d.fl.gGam g true } }

/-- The discrete effect of `JumpFromGGGammaGToG`. -/
def unsetGamG (d : Diag Q F) (g : ℕ) : Diag Q F :=
  { d with hasGamma := 0, fl := { d.fl with gGam := upd d.fl.gGam g false } }

theorem toGG_skip {g : ℕ} (hg : g ∈ d.G.live) {T : Q}
    (hc : ¬ (d.order ≠ 0 ∧ d.worm.exist = false ∧ d.hasGamma = 0 ∧ d.fl.gMeas g = false)) (u : Q) :
    (Move.toGGGammaG g T).run P d u = skip d := by
  simp only [Move.run]
  by_cases c : d.order = 0 ∨ d.worm.exist = true ∨ d.hasGamma ≠ 0
  · rw [if_pos c]
  rw [if_neg c]
  simp only [not_or, Bool.not_eq_true, not_not] at c
  unfold toGGGammaGCore
  rw [deref_live hg, Res.ok_bind, if_pos]
  by_contra hn
  exact hc ⟨c.1, c.2.1, c.2.2, by simpa using hn⟩

theorem toGG_run (h : Inv P d) {g : ℕ} (hg : g ∈ d.G.live) {T : Q}
    (hc : d.order ≠ 0 ∧ d.worm.exist = false ∧ d.hasGamma = 0 ∧ d.fl.gMeas g = false) :
    ∃ R : F, ∃ wt ph, (NonZero P (setGamG d g T) → R ≠ 0) ∧
      ∀ u, (Move.toGGGammaG g T).run P d u =
      metropolis d { d with ext := ⟨T, d.co.r (d.sh.gV g IN), UP⟩ } (P.mod R * (probOfCall P .fromGGGammaG * 2 *
        (d.order : Q) / (probOfCall P .toGGGammaG * probTau P T) * gammaRW P d.measG)) u
        (.ok { setGamG d g T with weight := d.weight * R, phase := ph, wt := wt }) := by
  obtain ⟨ho, hw, hγ, hm⟩ := hc
  have ha := h.topo.gV_mem _ hg IN
  have hb := h.topo.gV_mem _ hg OUT
  have hsp := h.spin _ hg
  have hmain : ∃ R : F, ∃ wt ph, (NonZero P (setGamG d g T) → R ≠ 0) ∧
      ∀ u, toGGGammaGCore P d g T u =
      metropolis d { d with ext := ⟨T, d.co.r (d.sh.gV g IN), UP⟩ } (P.mod R * (probOfCall P .fromGGGammaG * 2 *
        (d.order : Q) / (probOfCall P .toGGGammaG * probTau P T) * gammaRW P d.measG)) u
        (.ok { setGamG d g T with weight := d.weight * R, phase := ph, wt := wt }) := by
    unfold toGGGammaGCore
    simp only [deref_live hg, deref_live ha, deref_live hb, Res.ok_bind, hm, Bool.false_eq_true, if_false, mul_assoc]
    refine ⟨_, _, _, ?_, fun u => rfl⟩
    rintro ⟨n1, -⟩
    have m1 := n1 _ hg
    simp only [gExpected, setGamG, upd_same, ← hsp, hm] at m1
    exact div_ne_zero m1 (h.line.g_ne _ hg)
  obtain ⟨R, wt, ph, hR, e⟩ := hmain
  refine ⟨R, wt, ph, hR, fun u => ?_⟩
  simp only [Move.run]
  rw [if_neg (by simp [ho, hw, hγ])]
  exact e u

theorem fromGG_run (h : Inv P d) (hc : d.order ≠ 0 ∧ d.worm.exist = false ∧ d.hasGamma = 1) :
    ∃ g ∈ d.G.live, d.fl.gGam g = true ∧ d.vin = .g g IN ∧ d.vout = .g g OUT ∧
    ((¬ (d.co.r (d.sh.gV g IN) = d.co.r (d.sh.gV g OUT) ∧ d.ext.spin = UP ∧ d.co.r (d.sh.gV g IN) = d.ext.r) ∧
      ∀ u, (Move.fromGGGammaG : Move Q).run P d u = skip d) ∨
    ((d.co.r (d.sh.gV g IN) = d.co.r (d.sh.gV g OUT) ∧ d.ext.spin = UP ∧ d.co.r (d.sh.gV g IN) = d.ext.r) ∧
    ∃ R : F, ∃ wt ph, (NonZero P (unsetGamG d g) → R ≠ 0) ∧
      ∀ u, (Move.fromGGGammaG : Move Q).run P d u =
      metropolis d d (P.mod R * (probOfCall P .toGGGammaG * probTau P d.ext.tau /
        (probOfCall P .fromGGGammaG * 2 * (d.order : Q)) / gammaRW P d.measG)) u
        (.ok { unsetGamG d g with weight := d.weight * R, phase := ph, wt := wt }))) := by
  obtain ⟨ho, hw, hγ⟩ := hc
  obtain ⟨g, hg, hgt⟩ := h.gamma.g_ex hγ
  obtain ⟨-, hvin, hvout⟩ := (h.gamma.g_flag g hg).1 hgt
  refine ⟨g, hg, hgt, hvin, hvout, ?_⟩
  have ha := h.topo.gV_mem _ hg IN
  have hb := h.topo.gV_mem _ hg OUT
  have hga : d.sh.vG (d.sh.gV g IN) OUT = g := h.topo.vG_gV g hg IN
  have hsp := h.spin _ hg
  have hgl := Bundle.live_lt hg
  have hgm := h.gamma.g_meas g hg hgt
  have e0 : ∀ u, (Move.fromGGGammaG : Move Q).run P d u = fromGGGammaGCore P d u := by
    intro u
    simp only [Move.run]
    rw [if_neg (by simp [ho, hw, hγ])]
  simp only [e0]
  unfold fromGGGammaGCore
  have ra : d.vin.read d.sh = .ok (d.sh.gV g IN) := by rw [hvin]; simp only [Handle.read, if_pos hgl]
  have rb : d.vout.read d.sh = .ok (d.sh.gV g OUT) := by rw [hvout]; simp only [Handle.read, if_pos hgl]
  simp only [ra, rb, hga, deref_live hg, deref_live ha, deref_live hb,
    Res.ok_bind]
  by_cases c1 : d.co.r (d.sh.gV g IN) = d.co.r (d.sh.gV g OUT)
  swap
  · exact Or.inl ⟨fun q => c1 q.1, fun u => by rw [if_pos c1]⟩
  by_cases c2 : d.ext.spin = UP
  swap
  · exact Or.inl ⟨fun q => c2 q.2.1, fun u => by rw [if_neg (not_not.2 c1), if_pos c2]⟩
  by_cases c3 : d.co.r (d.sh.gV g IN) = d.ext.r
  swap
  · exact Or.inl ⟨fun q => c3 q.2.2, fun u => by rw [if_neg (not_not.2 c1), if_neg (not_not.2 c2), if_pos c3]⟩
  refine Or.inr ⟨⟨c1, c2, c3⟩, ?_⟩
  simp only [if_neg (not_not.2 c1), if_neg (not_not.2 c2), if_neg (not_not.2 c3)]
  simp only [mul_div_assoc (P.mod _)]
  refine ⟨_, _, _, ?_, fun u => rfl⟩
  rintro ⟨n1, -⟩
  have m1 := n1 _ hg
  simp only [gExpected, unsetGamG, upd_same, ← hsp, hgm] at m1
  exact div_ne_zero m1 (h.line.g_ne _ hg)

theorem fromGG_skip (hc : ¬ (d.order ≠ 0 ∧ d.worm.exist = false ∧ d.hasGamma = 1)) (u : Q) :
    (Move.fromGGGammaG : Move Q).run P d u = skip d := by
  simp only [Move.run]
  by_cases c : d.order = 0 ∨ d.worm.exist = true ∨ d.hasGamma ≠ 1
  · rw [if_pos c]
  simp only [not_or, Bool.not_eq_true, not_not] at c
  exact absurd c hc

theorem gammaRW_pos (hf : PosFactors P) (b : Bool) : 0 < gammaRW P b := by
  unfold gammaRW; split_ifs
  · exact hf.gammaG
  · exact hf.gammaW

theorem sector_gamma (P : Params Q F) {d : Diag Q F} (hγ : d.hasGamma ≠ 0) :
    sector P d = P.orderRW.getD d.order 0 * (1 / (2 * ((MOD_K : ℤ) : Q))) ^ d.W.avail
    * (if d.worm.exist = true then P.wormRW * d.worm.wt * (1 / ((MOD_K : ℤ) : Q)) else 1)
    * (if d.measG = true then 1 else P.polarRW) * gammaRW P d.measG := by
  unfold sector gammaRW
  rw [if_neg hγ]

theorem toGG_bal (hP : P.Wf) (hf : PosFactors P) (h : Inv P d) (h' : Inv P d') (hsg : SiteGOk d) {g : ℕ} {T u p : Q}
    (hm : (Move.toGGGammaG g T).Valid P d) (hu : 0 ≤ u)
    {out : Out Q F} (e : (Move.toGGGammaG g T).run P d u = .ok out) (ha : out.tag = .accept)
    (hd : out.d = d') (hp : out.prob = p) : Bal P d (Move.toGGGammaG g T) d' p := by
  have hg : g ∈ d.G.live := hm.2.1
  have h3 : P.runGamma3 = true := by
    have q : (19 : ℕ) < numOps P := hm.1
    unfold numOps at q
    by_contra hn
    rw [if_neg hn] at q
    omega
  have hidx : ∀ op : Op, op.idx < 23 → op.idx < numOps P := by
    intro op q; unfold numOps; rw [if_pos h3]; exact q
  by_cases hc : d.order ≠ 0 ∧ d.worm.exist = false ∧ d.hasGamma = 0 ∧ d.fl.gMeas g = false
  swap
  · rw [toGG_skip hg hc] at e; exact absurd ha (fun q => skip_not_accept e q)
  obtain ⟨R, wt, ph, -, er⟩ := toGG_run (P := P) (T := T) h hg hc
  rw [er] at e
  have hd' := (metropolis_accept e ha).2.1
  rw [hd] at hd'
  subst hd'
  obtain ⟨ho, hw, hγ, hgm⟩ := hc
  obtain ⟨g', hg', hgt', hvin', -, hcase⟩ := fromGG_run (P := P) h' ⟨ho, hw, rfl⟩
  have hgg : g' = g := by
    have : (Handle.g g IN) = Handle.g g' IN := hvin'
    cases this; rfl
  subst hgg
  rcases hcase with ⟨q, -⟩ | ⟨-, R', wt', ph', hR', er'⟩
  · exact absurd ⟨hsg g' hg IN, rfl, rfl⟩ q
  have hcells : ∀ b, SameCells d { unsetGamG { setGamG d g' T with weight := d.weight * R, phase := ph, wt := wt } g'
      with weight := b, phase := ph', wt := wt' } := by
    intro b
    constructor <;> first
      | (intros; rfl)
      | skip
    · intro x hx
      show upd (upd d.fl.gGam g' true) g' false x = d.fl.gGam x
      simp only [upd_apply]
      split_ifs with q
      · exact (h.noGamG (by omega) x hx).symm
      · rfl
    · exact hγ.symm
    · intro q; exact absurd hγ q
  have hn0 := numOps_cast_pos P
  have hb := hP.beta_pos
  have hrw := gammaRW_pos hf d.measG
  have hoN := h.order_eq ho
  have hN : (0 : Q) < (d.order : Q) := by exact_mod_cast Nat.pos_of_ne_zero ho
  have hGN : (d.G.avail : Q) = 2 * (d.order : Q) := by
    rw [h.count.g, hoN]; push_cast; ring
  have k1 := probOfCall_eq P (hidx .fromGGGammaG (by decide))
  have k2 := probOfCall_eq P (hidx .toGGGammaG (by decide))
  refine bal_core hP h h' hu e ha hd hp rfl ?_ ?_ ⟨hidx .fromGGGammaG (by decide), trivial⟩
    ?_ er' rfl (hR' ?_) (hcells _).parts ?_
  · rw [k1, k2, probTau]; positivity
  · rw [k1, k2]
    simp only [probTau, setGamG]; field_simp
  · rfl
  · exact (hcells 0).nonZero h ho
  · rw [sector_gamma P (d := { setGamG d g' T with weight := d.weight * R, phase := ph, wt := wt })
      (by simp [setGamG]), k1, k2]
    simp only [Move.density, Move.rev, sector, setGamG, hγ, hGN, probTau, if_true]
    field_simp
    rfl

theorem fromGG_bal (hP : P.Wf) (hf : PosFactors P) (h : Inv P d) (h' : Inv P d') {u p : Q}
    (hm : (Move.fromGGGammaG : Move Q).Valid P d) (hu : 0 ≤ u)
    {out : Out Q F} (e : (Move.fromGGGammaG : Move Q).run P d u = .ok out) (ha : out.tag = .accept)
    (hd : out.d = d') (hp : out.prob = p) : Bal P d Move.fromGGGammaG d' p := by
  have h3 : P.runGamma3 = true := by
    have q : (20 : ℕ) < numOps P := hm.1
    unfold numOps at q
    by_contra hn
    rw [if_neg hn] at q
    omega
  have hidx : ∀ op : Op, op.idx < 23 → op.idx < numOps P := by
    intro op q; unfold numOps; rw [if_pos h3]; exact q
  by_cases hc : d.order ≠ 0 ∧ d.worm.exist = false ∧ d.hasGamma = 1
  swap
  · rw [fromGG_skip hc] at e; exact absurd ha (fun q => skip_not_accept e q)
  obtain ⟨g, hg, hgt, hvin, hvout, hcase⟩ := fromGG_run (P := P) h hc
  rcases hcase with ⟨-, q⟩ | ⟨⟨c1, c2, c3⟩, R, wt, ph, -, er⟩
  · rw [q] at e; exact absurd ha (fun q => skip_not_accept e q)
  rw [er] at e
  have hd' := (metropolis_accept e ha).2.1
  rw [hd] at hd'
  subst hd'
  obtain ⟨ho, hw, hγ⟩ := hc
  have hgm := h.gamma.g_meas g hg hgt
  obtain ⟨R', wt', ph', hR', er'⟩ := toGG_run (P := P) (T := d.ext.tau) h' hg ⟨ho, hw, rfl, hgm⟩
  have hrev : (Move.fromGGGammaG : Move Q).rev d = .toGGGammaG g d.ext.tau := by
    simp only [Move.rev, hvin, Handle.line]
  have hcells : ∀ b, SameCells d { setGamG { unsetGamG d g with weight := d.weight * R, phase := ph, wt := wt } g
      d.ext.tau with weight := b, phase := ph', wt := wt' } := by
    intro b
    constructor <;> first
      | (intros; rfl)
      | skip
    · intro x hx
      show upd (upd d.fl.gGam g false) g true x = d.fl.gGam x
      simp only [upd_apply]
      split_ifs with q
      · rw [q, hgt]
      · rfl
    · exact hγ.symm
    · intro _
      show (⟨d.ext.tau, d.co.r (d.sh.gV g IN), UP⟩ : Ext Q) = d.ext
      rw [c3, ← c2]
  have hn0 := numOps_cast_pos P
  have hb := hP.beta_pos
  have hrw := gammaRW_pos hf d.measG
  have hoN := h.order_eq ho
  have hN : (0 : Q) < (d.order : Q) := by exact_mod_cast Nat.pos_of_ne_zero ho
  have hGN : (d.G.avail : Q) = 2 * (d.order : Q) := by
    rw [h.count.g, hoN]; push_cast; ring
  have k1 := probOfCall_eq P (hidx .fromGGGammaG (by decide))
  have k2 := probOfCall_eq P (hidx .toGGGammaG (by decide))
  refine bal_core hP h h' hu e ha hd hp rfl ?_ ?_ (by rw [hrev]; exact ⟨hidx .toGGGammaG (by decide), hg,
    (h.ext (by rw [hγ]; decide)).2.1⟩)
    (by rw [hrev]; rfl) (by rw [hrev]; exact er') rfl (hR' ?_) (hcells _).parts ?_
  · rw [k1, k2, probTau]; positivity
  · rw [k1, k2]
    simp only [probTau, unsetGamG]; field_simp
  · exact (hcells 0).nonZero h ho
  · rw [hrev, sector_gamma P (d := d) (by rw [hγ]; decide), k1, k2]
    simp only [Move.density, Move.rev, sector, unsetGamG, hGN, probTau, if_true]
    field_simp
    rfl

/-! ### Composite interaction line -/

/-- The discrete effect of `JumpToWWGammaW`. -/
def setGamW (d : Diag Q F) (w : ℕ) (T : Q) (r : Site) : Diag Q F :=
  { d with
    ext := ⟨T, r, UP⟩
    hasGamma := 2
    vin := .w w IN
    vout := .w w OUT
    fl := { d.fl with wGam := upd d.fl.wGam w true } }

/-- The discrete effect of `JumpFromWWGammaWToW`. -/
def unsetGamW (d : Diag Q F) (w : ℕ) : Diag Q F :=
  { d with hasGamma := 0, fl := { d.fl with wGam := upd d.fl.wGam w false } }

theorem toWW_skip {w : ℕ} (hw : w ∈ d.W.live) {T : Q} {r : Site}
    (hc : ¬ (d.order ≠ 0 ∧ d.worm.exist = false ∧ d.hasGamma = 0 ∧ d.fl.wMeas w = false ∧ d.fl.wDelta w = false)) (u : Q) :
    (Move.toWWGammaW w T r).run P d u = skip d := by
  simp only [Move.run]
  by_cases c : d.order = 0 ∨ d.worm.exist = true ∨ d.hasGamma ≠ 0
  · rw [if_pos c]
  rw [if_neg c]
  simp only [not_or, Bool.not_eq_true, not_not] at c
  unfold toWWGammaWCore
  rw [deref_live hw, Res.ok_bind]
  by_cases c1 : d.fl.wMeas w = true
  · rw [if_pos c1]
  rw [if_neg c1, if_pos]
  by_contra hn
  exact hc ⟨c.1, c.2.1, c.2.2, by simpa using c1, by simpa using hn⟩

theorem toWW_run (h : Inv P d) {w : ℕ} (hw : w ∈ d.W.live) {T : Q} {r : Site}
    (hc : d.order ≠ 0 ∧ d.worm.exist = false ∧ d.hasGamma = 0 ∧ d.fl.wMeas w = false ∧ d.fl.wDelta w = false) :
    ∃ R : F, ∃ wt ph, (NonZero P (setGamW d w T r) → R ≠ 0) ∧
      ∀ u, (Move.toWWGammaW w T r).run P d u =
      metropolis d { d with ext := ⟨T, r, UP⟩ } (P.mod R * (probOfCall P .fromWWGammaW *
        (d.order : Q) / (probOfCall P .toWWGammaW * probTau P T * probSite P r) * gammaRW P d.measG)) u
        (.ok { setGamW d w T r with weight := d.weight * R, phase := ph, wt := wt }) := by
  obtain ⟨ho, hwo, hγ, hm, hδ⟩ := hc
  have ha := h.topo.wV_mem _ hw IN
  have hb := h.topo.wV_mem _ hw OUT
  have hnw := h.noWorm hwo w hw
  have hmain : ∃ R : F, ∃ wt ph, (NonZero P (setGamW d w T r) → R ≠ 0) ∧
      ∀ u, toWWGammaWCore P d w T r u =
      metropolis d { d with ext := ⟨T, r, UP⟩ } (P.mod R * (probOfCall P .fromWWGammaW *
        (d.order : Q) / (probOfCall P .toWWGammaW * probTau P T * probSite P r) * gammaRW P d.measG)) u
        (.ok { setGamW d w T r with weight := d.weight * R, phase := ph, wt := wt }) := by
    unfold toWWGammaWCore
    simp only [deref_live hw, deref_live ha, deref_live hb, Res.ok_bind, hm, hδ, Bool.false_eq_true, if_false, mul_assoc]
    refine ⟨_, _, _, ?_, fun u => rfl⟩
    rintro ⟨-, n1⟩
    have m1 := n1 _ hw
    simp only [wExpected, setGamW, upd_same, hm, hδ, hnw] at m1
    exact div_ne_zero m1 (h.line.w_ne _ hw)
  obtain ⟨R, wt, ph, hR, e⟩ := hmain
  refine ⟨R, wt, ph, hR, fun u => ?_⟩
  simp only [Move.run]
  rw [if_neg (by simp [ho, hwo, hγ])]
  exact e u

theorem fromWW_run (h : Inv P d) (hc : d.order ≠ 0 ∧ d.worm.exist = false ∧ d.hasGamma = 2) :
    ∃ w ∈ d.W.live, d.fl.wGam w = true ∧ d.vin = .w w IN ∧ d.vout = .w w OUT ∧ d.fl.wDelta w = false ∧ d.ext.spin = UP ∧
    ∃ R : F, ∃ wt ph, (NonZero P (unsetGamW d w) → R ≠ 0) ∧
      ∀ u, (Move.fromWWGammaW : Move Q).run P d u =
      metropolis d d (P.mod R * (probOfCall P .toWWGammaW * probTau P d.ext.tau * probSite P d.ext.r /
        (probOfCall P .fromWWGammaW * (d.order : Q)) / gammaRW P d.measG)) u
        (.ok { unsetGamW d w with weight := d.weight * R, phase := ph, wt := wt }) := by
  obtain ⟨ho, hwo, hγ⟩ := hc
  obtain ⟨w, hw, hwt⟩ := h.gamma.w_ex hγ
  obtain ⟨-, hvin, hvout⟩ := (h.gamma.w_flag w hw).1 hwt
  have ha := h.topo.wV_mem _ hw IN
  have hb := h.topo.wV_mem _ hw OUT
  have hwa : d.sh.vW (d.sh.wV w IN) = w := h.topo.vW_wV w hw IN
  have hwl := Bundle.live_lt hw
  have hwm := h.gamma.w_meas w hw hwt
  have hnw := h.noWorm hwo w hw
  have hwd : d.fl.wDelta w = false := by
    by_contra hc
    have := (h.delta w hw (by simpa using hc)).2
    rw [hwt] at this; cases this
  have hup : d.ext.spin = UP := (h.ext (by rw [hγ]; decide)).2.2
  refine ⟨w, hw, hwt, hvin, hvout, hwd, hup, ?_⟩
  have e0 : ∀ u, (Move.fromWWGammaW : Move Q).run P d u = fromWWGammaWCore P d u := by
    intro u
    simp only [Move.run]
    rw [if_neg (by simp [ho, hwo, hγ])]
  simp only [e0]
  unfold fromWWGammaWCore
  have ra : d.vin.read d.sh = .ok (d.sh.wV w IN) := by rw [hvin]; simp only [Handle.read, if_pos hwl]
  have rb : d.vout.read d.sh = .ok (d.sh.wV w OUT) := by rw [hvout]; simp only [Handle.read, if_pos hwl]
  simp only [ra, rb, hwa, deref_live hw, deref_live ha, deref_live hb,
    Res.ok_bind, if_neg (not_not.2 hup)]
  simp only [mul_div_assoc (P.mod _)]
  refine ⟨_, _, _, ?_, fun u => rfl⟩
  rintro ⟨-, n1⟩
  have m1 := n1 _ hw
  simp only [wExpected, unsetGamW, upd_same, hwm, hnw, hwd] at m1
  exact div_ne_zero m1 (h.line.w_ne _ hw)

theorem fromWW_skip (hc : ¬ (d.order ≠ 0 ∧ d.worm.exist = false ∧ d.hasGamma = 2)) (u : Q) :
    (Move.fromWWGammaW : Move Q).run P d u = skip d := by
  simp only [Move.run]
  by_cases c : d.order = 0 ∨ d.worm.exist = true ∨ d.hasGamma ≠ 2
  · rw [if_pos c]
  simp only [not_or, Bool.not_eq_true, not_not] at c
  exact absurd c hc

theorem toWW_bal (hP : P.Wf) (hf : PosFactors P) (h : Inv P d) (h' : Inv P d') {w : ℕ} {T u p : Q} {r : Site}
    (hm : (Move.toWWGammaW w T r).Valid P d) (hu : 0 ≤ u)
    {out : Out Q F} (e : (Move.toWWGammaW w T r).run P d u = .ok out) (ha : out.tag = .accept)
    (hd : out.d = d') (hp : out.prob = p) : Bal P d (Move.toWWGammaW w T r) d' p := by
  have hw : w ∈ d.W.live := hm.2.1
  have h3 : P.runGamma3 = true := by
    have q : (21 : ℕ) < numOps P := hm.1
    unfold numOps at q
    by_contra hn
    rw [if_neg hn] at q
    omega
  have hidx : ∀ op : Op, op.idx < 23 → op.idx < numOps P := by
    intro op q; unfold numOps; rw [if_pos h3]; exact q
  by_cases hc : d.order ≠ 0 ∧ d.worm.exist = false ∧ d.hasGamma = 0 ∧ d.fl.wMeas w = false ∧ d.fl.wDelta w = false
  swap
  · rw [toWW_skip hw hc] at e; exact absurd ha (fun q => skip_not_accept e q)
  obtain ⟨R, wt, ph, -, er⟩ := toWW_run (P := P) (T := T) (r := r) h hw hc
  rw [er] at e
  have hd' := (metropolis_accept e ha).2.1
  rw [hd] at hd'
  subst hd'
  obtain ⟨ho, hwo, hγ, hwm, hδ⟩ := hc
  obtain ⟨w', hw', hwt', hvin', -, -, -, R', wt', ph', hR', er'⟩ := fromWW_run (P := P) h' ⟨ho, hwo, rfl⟩
  have hgg : w' = w := by
    have : (Handle.w w IN) = Handle.w w' IN := hvin'
    cases this; rfl
  subst hgg
  have hcells : ∀ b, SameCells d { unsetGamW { setGamW d w' T r with weight := d.weight * R, phase := ph, wt := wt } w'
      with weight := b, phase := ph', wt := wt' } := by
    intro b
    constructor <;> first
      | (intros; rfl)
      | skip
    · intro x hx
      show upd (upd d.fl.wGam w' true) w' false x = d.fl.wGam x
      simp only [upd_apply]
      split_ifs with q
      · exact (h.noGamW (by omega) x hx).symm
      · rfl
    · exact hγ.symm
    · intro q; exact absurd hγ q
  have hn0 := numOps_cast_pos P
  have hb := hP.beta_pos
  have hrw := gammaRW_pos hf d.measG
  have hoN := h.order_eq ho
  have hN : (0 : Q) < (d.order : Q) := by exact_mod_cast Nat.pos_of_ne_zero ho
  have hGN : (d.W.avail : Q) = (d.order : Q) := by rw [hoN]
  have k1 := probOfCall_eq P (hidx .fromWWGammaW (by decide))
  have k2 := probOfCall_eq P (hidx .toWWGammaW (by decide))
  have hx := hP.lx_pos
  have hy := hP.ly_pos
  have hs := hP.nsub_pos
  have hS : (0 : Q) < ((P.lx * P.ly : ℕ) : Q) * (P.nsub : Q) := by
    have : 0 < P.lx * P.ly := Nat.mul_pos hx hy
    exact mul_pos (by exact_mod_cast this) (by exact_mod_cast hs)
  refine bal_core hP h h' hu e ha hd hp rfl ?_ ?_ ⟨hidx .fromWWGammaW (by decide), trivial⟩
    ?_ er' rfl (hR' ?_) (hcells _).parts ?_
  · rw [k1, k2]; simp only [probTau, probSite]; positivity
  · rw [k1, k2]
    simp only [probTau, probSite, setGamW]; field_simp
  · rfl
  · exact (hcells 0).nonZero h ho
  · rw [sector_gamma P (d := { setGamW d w' T r with weight := d.weight * R, phase := ph, wt := wt })
      (by simp [setGamW]), k1, k2]
    simp only [Move.density, Move.rev, sector, setGamW, hγ, hGN, probTau, probSite, if_true]
    rw [Nat.cast_mul _ P.nsub]
    field_simp
    rfl

theorem fromWW_bal (hP : P.Wf) (hf : PosFactors P) (h : Inv P d) (h' : Inv P d') {u p : Q}
    (hm : (Move.fromWWGammaW : Move Q).Valid P d) (hu : 0 ≤ u)
    {out : Out Q F} (e : (Move.fromWWGammaW : Move Q).run P d u = .ok out) (ha : out.tag = .accept)
    (hd : out.d = d') (hp : out.prob = p) : Bal P d Move.fromWWGammaW d' p := by
  have h3 : P.runGamma3 = true := by
    have q : (22 : ℕ) < numOps P := hm.1
    unfold numOps at q
    by_contra hn
    rw [if_neg hn] at q
    omega
  have hidx : ∀ op : Op, op.idx < 23 → op.idx < numOps P := by
    intro op q; unfold numOps; rw [if_pos h3]; exact q
  by_cases hc : d.order ≠ 0 ∧ d.worm.exist = false ∧ d.hasGamma = 2
  swap
  · rw [fromWW_skip hc] at e; exact absurd ha (fun q => skip_not_accept e q)
  obtain ⟨w, hw, hwt, hvin, hvout, hδ, hup, R, wt, ph, -, er⟩ := fromWW_run (P := P) h hc
  rw [er] at e
  have hd' := (metropolis_accept e ha).2.1
  rw [hd] at hd'
  subst hd'
  obtain ⟨ho, hwo, hγ⟩ := hc
  have hwm := h.gamma.w_meas w hw hwt
  obtain ⟨R', wt', ph', hR', er'⟩ := toWW_run (P := P) (T := d.ext.tau) (r := d.ext.r) h' hw ⟨ho, hwo, rfl, hwm, hδ⟩
  have hrev : (Move.fromWWGammaW : Move Q).rev d = .toWWGammaW w d.ext.tau d.ext.r := by
    simp only [Move.rev, hvin, Handle.line]
  have hcells : ∀ b, SameCells d { setGamW { unsetGamW d w with weight := d.weight * R, phase := ph, wt := wt } w
      d.ext.tau d.ext.r with weight := b, phase := ph', wt := wt' } := by
    intro b
    constructor <;> first
      | (intros; rfl)
      | skip
    · intro x hx
      show upd (upd d.fl.wGam w false) w true x = d.fl.wGam x
      simp only [upd_apply]
      split_ifs with q
      · rw [q, hwt]
      · rfl
    · exact hγ.symm
    · intro _
      show (⟨d.ext.tau, d.ext.r, UP⟩ : Ext Q) = d.ext
      rw [← hup]
  have hn0 := numOps_cast_pos P
  have hb := hP.beta_pos
  have hrw := gammaRW_pos hf d.measG
  have hoN := h.order_eq ho
  have hN : (0 : Q) < (d.order : Q) := by exact_mod_cast Nat.pos_of_ne_zero ho
  have hGN : (d.W.avail : Q) = (d.order : Q) := by rw [hoN]
  have k1 := probOfCall_eq P (hidx .fromWWGammaW (by decide))
  have k2 := probOfCall_eq P (hidx .toWWGammaW (by decide))
  have hx := hP.lx_pos
  have hy := hP.ly_pos
  have hs := hP.nsub_pos
  have hS : (0 : Q) < ((P.lx * P.ly : ℕ) : Q) * (P.nsub : Q) := by
    have : 0 < P.lx * P.ly := Nat.mul_pos hx hy
    exact mul_pos (by exact_mod_cast this) (by exact_mod_cast hs)
  have hext := h.ext (by rw [hγ]; decide)
  refine bal_core hP h h' hu e ha hd hp rfl ?_ ?_ (by rw [hrev]; exact ⟨hidx .toWWGammaW (by decide), hw,
    hext.2.1, hext.1⟩)
    (by rw [hrev]; rfl) (by rw [hrev]; exact er') rfl (hR' ?_) (hcells _).parts ?_
  · rw [k1, k2]; simp only [probTau, probSite]; positivity
  · rw [k1, k2]
    simp only [probTau, probSite, unsetGamW]; field_simp
  · exact (hcells 0).nonZero h ho
  · rw [hrev, sector_gamma P (d := d) (by rw [hγ]; decide), k1, k2]
    simp only [Move.density, Move.rev, sector, unsetGamW, hGN, probTau, probSite, if_true]
    rw [Nat.cast_mul _ P.nsub]
    field_simp
    rfl

end
end Feyn
