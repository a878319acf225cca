import Verif.Proof.RevBase

/-!
# Detailed balance: creating and deleting worms
-/

set_option linter.unusedSectionVars false
set_option linter.unusedSimpArgs false

namespace Feyn

section
variable {Q F : Type} [Field Q] [LinearOrder Q] [IsStrictOrderedRing Q] [Field F]
variable {P : Params Q F} {d d' d'' : Diag Q F}

/-- When `CreateWorm` makes a proposal. -/
def CreateOk (d : Diag Q F) (w : ℕ) (k s : ℤ) : Prop :=
  (d.order ≠ 0 ∧ d.worm.exist = false) ∧ (subK (d.mo.wK w) k ≠ 0 ∧ d.mo.wHash |subK (d.mo.wK w) k| = false) ∧
  ¬ (canNotMove s (d.co.spin (d.sh.wV w IN) IN) (d.co.spin (d.sh.wV w IN) OUT) &&
      canNotMove (-s) (d.co.spin (d.sh.wV w OUT) IN) (d.co.spin (d.sh.wV w OUT) OUT)) = true

/-- Weight of the line `w` with worm flag `b`. -/
def wormW (P : Params Q F) (d : Diag Q F) (w : ℕ) (b : Bool) : F :=
  wW0 P d.ext (d.co.r (d.sh.wV w IN)) (d.co.r (d.sh.wV w OUT)) (d.co.tau (d.sh.wV w IN)) (d.co.tau (d.sh.wV w OUT))
    (d.co.spin (d.sh.wV w IN)) (d.co.spin (d.sh.wV w OUT)) b (d.fl.wMeas w) (d.fl.wDelta w) (d.fl.wGam w)

/-- Diagram after `CreateWorm`. -/
def created (P : Params Q F) (d : Diag Q F) (w : ℕ) (k s : ℤ) (wh : ℤ → Bool) : Diag Q F :=
  { d with
    phase := d.phase * P.ph (wormW P d w true / d.wt.wWt w)
    weight := d.weight * (wormW P d w true / d.wt.wWt w)
    worm := ⟨true, d.sh.wV w IN, d.sh.wV w OUT, k, s, 1⟩
    mo := { d.mo with wHash := wh, wK := upd d.mo.wK w (subK (d.mo.wK w) k) }
    fl := { d.fl with wWorm := upd d.fl.wWorm w true }
    wt := { d.wt with wWt := upd d.wt.wWt w (wormW P d w true) } }

theorem createWorm_skip (h : Inv P d) {w : ℕ} {k s : ℤ} (hm : (Move.createWorm w k s : Move Q).Valid P d)
    (hc : ¬ CreateOk d w k s) (u : Q) : (Move.createWorm w k s).run P d u = skip d := by
  obtain ⟨-, hw, hk, -⟩ := hm
  simp only [Move.run]
  by_cases c : d.order = 0 ∨ d.worm.exist = true
  · rw [if_pos c]
  rw [if_neg c]
  simp only [not_or, Bool.not_eq_true] at c
  have hin := h.topo.wV_mem w hw IN
  have hout := h.topo.wV_mem w hw OUT
  have hkW : InK (subK (d.mo.wK w) k) := subK_in (h.whash.mem w hw) hk
  unfold createWormCore
  simp only [deref_live hw, deref_live hin, deref_live hout, Res.ok_bind, wHashCheck_ok _ hkW]
  by_cases c1 : subK (d.mo.wK w) k = 0
  · simp [c1]
  by_cases c2 : d.mo.wHash |subK (d.mo.wK w) k| = true
  · simp [c2]
  simp only [c1, c2, if_false]
  rw [if_neg (by simp), if_pos]
  by_contra c3
  exact hc ⟨c, ⟨c1, by simpa using c2⟩, c3⟩

theorem createWorm_run (h : Inv P d) {w : ℕ} {k s : ℤ} (hm : (Move.createWorm w k s : Move Q).Valid P d)
    (hc : CreateOk d w k s) : ∃ wh, ∀ u, (Move.createWorm w k s).run P d u =
      metropolis d d (P.mod (wormW P d w true / d.wt.wWt w) *
        (probOfCall P .deleteWorm / probOfCall P .createWorm * P.wormRW * 1 * (d.order : Q) * 2)) u
        (.ok (created P d w k s wh)) := by
  obtain ⟨-, hw, hk, -⟩ := hm
  obtain ⟨c, ⟨c1, c2⟩, c3⟩ := hc
  have hin := h.topo.wV_mem w hw IN
  have hout := h.topo.wV_mem w hw OUT
  have hkW : InK (subK (d.mo.wK w) k) := subK_in (h.whash.mem w hw) hk
  obtain ⟨wh, ewh, -⟩ := replaceWHash_ok h.whash hw hkW c1 c2
  refine ⟨wh, fun u => ?_⟩
  simp only [Move.run]
  rw [if_neg (by simp [c])]
  unfold createWormCore
  simp only [deref_live hw, deref_live hin, deref_live hout, Res.ok_bind, wHashCheck_ok _ hkW, c1, c2, if_false]
  rw [if_neg (by simp), if_neg c3, ewh]
  rfl

/-- When `DeleteWorm` makes a proposal. -/
def DeleteOk (d : Diag Q F) : Prop :=
  (d.order ≠ 0 ∧ d.worm.exist = true) ∧ d.sh.vW d.worm.ira = d.sh.vW d.worm.masha ∧
  addK (d.mo.wK (d.sh.vW d.worm.ira)) d.worm.k ≠ 0 ∧
  d.mo.wHash |addK (d.mo.wK (d.sh.vW d.worm.ira)) d.worm.k| = false

/-- Diagram after `DeleteWorm`. -/
def deleted (P : Params Q F) (d : Diag Q F) (wh : ℤ → Bool) : Diag Q F :=
  let w := d.sh.vW d.worm.ira
  { d with
    phase := d.phase * P.ph (wormW P d w false / d.wt.wWt w)
    weight := d.weight * (wormW P d w false / d.wt.wWt w)
    worm := { d.worm with exist := false }
    mo := { d.mo with wHash := wh, wK := upd d.mo.wK w (addK (d.mo.wK w) d.worm.k) }
    fl := { d.fl with wWorm := upd d.fl.wWorm w false }
    wt := { d.wt with wWt := upd d.wt.wWt w (wormW P d w false) } }

/-- The worm ends on one line: `ira` is the `IN` end. -/
theorem worm_ends (h : Inv P d) (hw : d.worm.exist = true) (c0 : d.sh.vW d.worm.ira = d.sh.vW d.worm.masha) :
    d.sh.vDir d.worm.ira = IN ∧ d.sh.wV (d.sh.vW d.worm.ira) IN = d.worm.ira ∧
      d.sh.wV (d.sh.vW d.worm.ira) OUT = d.worm.masha := by
  have hI := h.worm.ira_mem hw
  have hM := h.worm.masha_mem hw
  have hdM := h.worm.masha_dir hw
  have hne := h.worm.ne hw
  have eI := h.topo.wV_vW _ hI
  have eM := h.topo.wV_vW _ hM
  rw [← c0, hdM] at eM
  have hdI : d.sh.vDir d.worm.ira = IN := by
    rcases hd : d.sh.vDir d.worm.ira
    · rfl
    · rw [hd] at eI; exact absurd (eI.symm.trans eM) hne
  rw [hdI] at eI
  exact ⟨hdI, eI, eM⟩

theorem mulK_one {k : ℤ} (hk : InK k) : mulK 1 k = k := by
  unfold mulK ofInt; rw [mul_one, shiftK_of_in hk]

theorem deleteWorm_skip (h : Inv P d) (hc : ¬ DeleteOk d) (u : Q) :
    (Move.deleteWorm : Move Q).run P d u = skip d := by
  simp only [Move.run]
  by_cases c : d.order = 0 ∨ d.worm.exist = false
  · rw [if_pos c]
  rw [if_neg c]
  simp only [not_or, Bool.not_eq_false] at c
  have hI := h.worm.ira_mem c.2
  have hM := h.worm.masha_mem c.2
  have hwm := h.topo.vW_mem _ hI
  unfold deleteWormCore
  simp only [deref_live hI, deref_live hM, deref_live hwm, Res.ok_bind]
  by_cases c0 : d.sh.vW d.worm.ira = d.sh.vW d.worm.masha
  · rw [if_neg (by simpa using c0)]
    have hk := h.worm.k_in c.2
    have hkW : InK (addK (d.mo.wK (d.sh.vW d.worm.ira)) d.worm.k) := addK_in (h.whash.mem _ hwm) hk
    rw [(worm_ends h c.2 c0).1, show sgn IN = 1 from rfl, mulK_one hk]
    simp only [wHashCheck_ok _ hkW, Res.ok_bind]
    rw [if_pos]
    by_contra c1
    split_ifs at c1 with c2
    · exact c1 rfl
    · exact hc ⟨c, c0, c2, by simpa using c1⟩
  · rw [if_pos c0]

theorem deleteWorm_run (h : Inv P d) (hc : DeleteOk d) : ∃ wh, ∀ u, (Move.deleteWorm : Move Q).run P d u =
      metropolis d d (P.mod (wormW P d (d.sh.vW d.worm.ira) false / d.wt.wWt (d.sh.vW d.worm.ira)) *
        (probOfCall P .createWorm / (probOfCall P .deleteWorm * P.wormRW * d.worm.wt * (d.order : Q) * 2))) u
        (.ok (deleted P d wh)) := by
  obtain ⟨c, c0, c1, c2⟩ := hc
  have hI := h.worm.ira_mem c.2
  have hM := h.worm.masha_mem c.2
  have hwm := h.topo.vW_mem _ hI
  have hk := h.worm.k_in c.2
  have hkW : InK (addK (d.mo.wK (d.sh.vW d.worm.ira)) d.worm.k) := addK_in (h.whash.mem _ hwm) hk
  obtain ⟨e1, e2, e3⟩ := worm_ends h c.2 c0
  obtain ⟨wh, ewh, -⟩ := replaceWHash_ok h.whash hwm hkW c1 c2
  refine ⟨wh, fun u => ?_⟩
  have hdm : d.fl.wDelta (d.sh.vW d.worm.ira) = true → d.fl.wMeas (d.sh.vW d.worm.ira) = false :=
    fun e => (h.delta _ hwm e).1
  simp only [Move.run]
  rw [if_neg (by simp [c])]
  unfold deleteWormCore
  simp only [deref_live hI, deref_live hM, deref_live hwm, Res.ok_bind]
  rw [if_neg (by simpa using c0), e1, show sgn IN = 1 from rfl, mulK_one hk]
  simp only [wHashCheck_ok _ hkW, Res.ok_bind, c1, c2, if_false]
  rw [if_neg (by simp), wW_eq _ _ _ _ _ _ _ _ _ _ _ _ _ hdm, if_pos rfl]
  have e4 : wormW P d (d.sh.vW d.worm.ira) false = wW0 P d.ext (d.co.r d.worm.ira) (d.co.r d.worm.masha)
      (d.co.tau d.worm.ira) (d.co.tau d.worm.masha) (d.co.spin d.worm.ira) (d.co.spin d.worm.masha) false
      (d.fl.wMeas (d.sh.vW d.worm.ira)) (d.fl.wDelta (d.sh.vW d.worm.ira)) (d.fl.wGam (d.sh.vW d.worm.ira)) := by
    unfold wormW; rw [e2, e3]
  rw [← e4, ewh]
  rfl

theorem mod_inv_mul {a b : F} (c c' : Q) (hc : c * c' = 1) (hab : a * b = 1) :
    (P.mod a * c)⁻¹ = P.mod b * c' := by
  have h1 : P.mod a * P.mod b = 1 := by rw [← map_mul, hab, map_one]
  apply inv_eq_of_mul_eq_one_right
  calc P.mod a * c * (P.mod b * c') = (P.mod a * P.mod b) * (c * c') := by ring
    _ = 1 := by rw [h1, hc, one_mul]

theorem createWorm_bal (hP : P.Wf) (hf : PosFactors P) (h : Inv P d) (h' : Inv P d') {w : ℕ} {k s : ℤ}
    (hm : (Move.createWorm w k s : Move Q).Valid P d) {u p : Q} (hu : 0 ≤ u) {out : Out Q F}
    (e : (Move.createWorm w k s).run P d u = .ok out) (ha : out.tag = .accept) (hd : out.d = d') (hp : out.prob = p) :
    Bal P d (Move.createWorm w k s) d' p := by
  by_cases hc : CreateOk d w k s
  swap
  · rw [createWorm_skip h hm hc] at e; exact absurd ha (fun q => skip_not_accept e q)
  obtain ⟨wh, er⟩ := createWorm_run h hm hc
  rw [er] at e
  have hpos : 0 < p := hp ▸ metropolis_pos hu e ha
  obtain ⟨q1, q2, hacc⟩ := metropolis_accept e ha
  have hr := ratio_ne_zero hu hacc
  rw [hp] at q1
  rw [hd] at q2
  obtain ⟨⟨ho, hex⟩, ⟨hk0, hkf⟩, hcan⟩ := hc
  obtain ⟨-, hw, hk, hs⟩ := hm
  have hw0 := h.line.w_ne w hw
  have hX : wormW P d w true ≠ 0 := fun q => hr (by rw [q, zero_div])
  have hkW : InK (subK (d.mo.wK w) k) := subK_in (h.whash.mem w hw) hk
  have eW : d.sh.vW (d.sh.wV w IN) = w := h.topo.vW_wV w hw IN
  have eW' : d.sh.vW (d.sh.wV w OUT) = w := h.topo.vW_wV w hw OUT
  have hwf : d.fl.wWorm w = false := by have := h.worm.flag w hw; rw [hex] at this; simpa using this
  have ek : addK (subK (d.mo.wK w) k) k = d.mo.wK w := by
    refine InK.eq_of_dvd (addK_in hkW hk) (h.whash.mem w hw) ?_
    have := addK_dvd (subK (d.mo.wK w) k) k; have := subK_dvd (d.mo.wK w) k; omega
  have hwt : wormW P d w false = d.wt.wWt w := by
    rw [h.line.w_eq w hw]; unfold wormW wExpected; rw [hwf]
  subst q2
  have c1 := idx_lt P (op := .createWorm) (by decide)
  have c2 := idx_lt P (op := .deleteWorm) (by decide)
  have n1 := probOfCall_pos P c1
  have n2 := probOfCall_pos P c2
  have n3 := hf.worm
  have n4 : (0 : Q) < (d.order : Q) := by exact_mod_cast Nat.pos_of_ne_zero ho
  have hhash := h'.whash
  have hdel : DeleteOk (created P d w k s wh) := by
    refine ⟨⟨ho, rfl⟩, ?_, ?_, ?_⟩
    · simp only [created]; rw [eW, eW']
    · simp only [created]; rw [eW]; simp only [upd_same]; rw [ek]; exact h.whash.ne w hw
    · simp only [created]; rw [eW]; simp only [upd_same]; rw [ek]
      by_contra hh
      obtain ⟨w', hw', e'⟩ := (hhash.hash _).1 (by simpa [created] using hh)
      simp only [created, upd_apply] at e'
      split_ifs at e' with q
      · have := (h.whash.hash |subK (d.mo.wK w) k|).2 ⟨w, hw, e'.symm⟩
        rw [hkf] at this; cases this
      · exact q (h.whash.inj w' hw' w hw e')
  obtain ⟨wh', er'⟩ := deleteWorm_run h' hdel
  have hratio : wormW P (created P d w k s wh) ((created P d w k s wh).sh.vW (created P d w k s wh).worm.ira) false /
      (created P d w k s wh).wt.wWt ((created P d w k s wh).sh.vW (created P d w k s wh).worm.ira) =
      d.wt.wWt w / wormW P d w true := by
    simp only [created, eW, upd_same]
    rw [← hwt]; rfl
  rw [hratio] at er'
  refine bal_intro hP h h' hpos (m := .createWorm w k s) ⟨c2, trivial⟩ ?_
    (d'' := deleted P (created P d w k s wh) wh') ?_ (SameCells.parts ?_) ?_
  · simp [Move.rev, created, eW]
  · refine proposes_metropolis (rej := created P d w k s wh) (h'.order_lt hP) fun u' => ?_
    refine (er' u').trans ?_
    congr 1
    rw [q1]
    refine (mod_inv_mul _ _ ?_ ?_).symm
    · simp only [created]; field_simp
    · field_simp
  · have hr := SameCells.refl d
    constructor <;> first | (intros; rfl) | (intros; simp [created, deleted, eW, upd_apply, hex] ; done) | skip
    · intro w' _; simp only [deleted, created, eW, upd_apply]; split_ifs with q
      · rw [q]; exact ek
      · rfl
    · intro w' _; simp only [deleted, created, eW, upd_apply]; split_ifs with q
      · rw [q, hwf]
      · rfl
    · intro q; rw [hex] at q; cases q
  · have hN := h.order_eq ho
    rw [q1]
    simp only [target, Move.density, Move.rev, created, hex, map_mul, map_div₀, if_true]
    rw [probOfCall_eq P c1, probOfCall_eq P c2, ← hN]
    have := numOps_cast_pos P
    have : P.mod (d.wt.wWt w) ≠ 0 := by rw [ne_eq, map_eq_zero]; exact hw0
    field_simp
    simp

theorem deleteWorm_bal (hP : P.Wf) (hf : PosFactors P) (h : Inv P d) (hws : WormSpinOk d) (h' : Inv P d') {u p : Q}
    (hu : 0 ≤ u) {out : Out Q F}
    (e : (Move.deleteWorm : Move Q).run P d u = .ok out) (ha : out.tag = .accept) (hd : out.d = d')
    (hp : out.prob = p) : Bal P d Move.deleteWorm d' p := by
  by_cases hc : DeleteOk d
  swap
  · rw [deleteWorm_skip h hc] at e; exact absurd ha (fun q => skip_not_accept e q)
  obtain ⟨wh, er⟩ := deleteWorm_run h hc
  rw [er] at e
  have hpos : 0 < p := hp ▸ metropolis_pos hu e ha
  obtain ⟨q1, q2, hacc⟩ := metropolis_accept e ha
  have hr := ratio_ne_zero hu hacc
  rw [hp] at q1
  rw [hd] at q2
  obtain ⟨⟨ho, hex⟩, hww, hk0, hkf⟩ := hc
  obtain ⟨e1, e2, e3⟩ := worm_ends h hex hww
  have hI := h.worm.ira_mem hex
  have hw := h.topo.vW_mem _ hI
  have hk := h.worm.k_in hex
  have hds := h.worm.dSpin hex
  have hwt1 := h.worm.wt hex
  have hsp := hws hex
  rw [← hww, e2, if_pos rfl, sub_zero] at hsp
  generalize hwdef : d.sh.vW d.worm.ira = w at *
  have hw0 := h.line.w_ne w hw
  have hX : wormW P d w false ≠ 0 := fun q => hr (by rw [q, zero_div])
  have hkW : InK (addK (d.mo.wK w) d.worm.k) := addK_in (h.whash.mem w hw) hk
  have hwf : d.fl.wWorm w = true := (h.worm.flag w hw).2 ⟨hex, IN, Or.inl e2⟩
  have ek : subK (addK (d.mo.wK w) d.worm.k) d.worm.k = d.mo.wK w := by
    refine InK.eq_of_dvd (subK_in hkW hk) (h.whash.mem w hw) ?_
    have := subK_dvd (addK (d.mo.wK w) d.worm.k) d.worm.k; have := addK_dvd (d.mo.wK w) d.worm.k; omega
  have hwt : wormW P d w true = d.wt.wWt w := by
    rw [h.line.w_eq w hw]; unfold wormW wExpected; rw [hwf]
  subst q2
  have c1 := idx_lt P (op := .createWorm) (by decide)
  have c2 := idx_lt P (op := .deleteWorm) (by decide)
  have n1 := probOfCall_pos P c1
  have n2 := probOfCall_pos P c2
  have n3 := hf.worm
  have n4 : (0 : Q) < (d.order : Q) := by exact_mod_cast Nat.pos_of_ne_zero ho
  have hhash := h'.whash
  have hval : (Move.createWorm w d.worm.k d.worm.dSpin : Move Q).Valid P (deleted P d wh) := ⟨c1, hw, hk, hds⟩
  have hcr : CreateOk (deleted P d wh) w d.worm.k d.worm.dSpin := by
    refine ⟨⟨ho, rfl⟩, ⟨?_, ?_⟩, ?_⟩
    · simp only [deleted, hwdef, upd_same]; rw [ek]; exact h.whash.ne w hw
    · simp only [deleted, hwdef, upd_same]; rw [ek]
      by_contra hh
      obtain ⟨w', hw', e'⟩ := (hhash.hash _).1 (by simpa [deleted] using hh)
      simp only [deleted, hwdef, upd_apply] at e'
      split_ifs at e' with q
      · have := (h.whash.hash |addK (d.mo.wK w) d.worm.k|).2 ⟨w, hw, e'.symm⟩
        rw [hkf] at this; cases this
      · exact q (h.whash.inj w' hw' w hw e')
    · simp only [deleted]
      rw [Bool.and_eq_true, canNotMove_iff hds, e2]
      exact fun q => hsp q.1
  obtain ⟨wh', er'⟩ := createWorm_run h' hval hcr
  have hratio : wormW P (deleted P d wh) w true / (deleted P d wh).wt.wWt w = d.wt.wWt w / wormW P d w false := by
    simp only [deleted, hwdef, upd_same]
    rw [← hwt]; rfl
  rw [hratio] at er'
  have hrev : (Move.deleteWorm : Move Q).rev d = .createWorm w d.worm.k d.worm.dSpin := by
    simp only [Move.rev, hwdef]
  refine bal_intro hP h h' hpos (m := .deleteWorm) (by rw [hrev]; exact hval) (by rw [hrev]; rfl)
    (d'' := created P (deleted P d wh) w d.worm.k d.worm.dSpin wh') ?_ (SameCells.parts ?_) ?_
  · refine proposes_metropolis (rej := deleted P d wh) (h'.order_lt hP) fun u' => ?_
    rw [hrev]
    refine (er' u').trans ?_
    congr 1
    rw [q1]
    refine (mod_inv_mul _ _ ?_ ?_).symm
    · simp only [deleted, hwt1]; field_simp
    · field_simp
  · constructor <;> first | (intros; rfl) | (intros; simp [created, deleted, hwdef, upd_apply, hex] ; done) | skip
    · intro w' _; simp only [deleted, created, hwdef, upd_apply]; split_ifs with q
      · rw [q]; exact ek
      · rfl
    · intro w' _; simp only [deleted, created, hwdef, upd_apply]; split_ifs with q
      · rw [q, hwf]
      · rfl
    · intro _
      simp only [created, deleted, e2, e3]
      rw [← hex, ← hwt1]
  · have hN := h.order_eq ho
    rw [q1, hrev]
    simp only [target, Move.density, deleted, hex, map_mul, map_div₀, if_true, hwdef]
    rw [probOfCall_eq P c1, probOfCall_eq P c2, ← hN, hwt1]
    have := numOps_cast_pos P
    have : P.mod (d.wt.wWt w) ≠ 0 := by rw [ne_eq, map_eq_zero]; exact hw0
    field_simp
    simp

/-! ### Moving `ira` along an interaction line -/

/-- When `MoveWormOnW` makes a proposal. -/
def MoveWOk (d : Diag Q F) : Prop :=
  (d.order ≠ 0 ∧ d.worm.exist = true) ∧
  d.sh.wV (d.sh.vW d.worm.ira) (!d.sh.vDir d.worm.ira) ≠ d.worm.masha ∧
  addK (d.mo.wK (d.sh.vW d.worm.ira)) (mulK (sgn (d.sh.vDir d.worm.ira)) d.worm.k) ≠ 0 ∧
  d.mo.wHash |addK (d.mo.wK (d.sh.vW d.worm.ira)) (mulK (sgn (d.sh.vDir d.worm.ira)) d.worm.k)| = false

/-- Diagram after `MoveWormOnW`. -/
def movedW (P : Params Q F) (d : Diag Q F) (wh : ℤ → Bool) : Diag Q F :=
  let w := d.sh.vW d.worm.ira
  { d with
    phase := d.phase * P.ph (wExpected P d.sh d.co d.fl d.ext w / d.wt.wWt w)
    weight := d.weight * (wExpected P d.sh d.co d.fl d.ext w / d.wt.wWt w)
    worm := { d.worm with ira := d.sh.wV w (!d.sh.vDir d.worm.ira), wt := 1 }
    mo := { d.mo with
      wHash := wh, wK := upd d.mo.wK w (addK (d.mo.wK w) (mulK (sgn (d.sh.vDir d.worm.ira)) d.worm.k)) }
    wt := { d.wt with wWt := upd d.wt.wWt w (wExpected P d.sh d.co d.fl d.ext w) } }

theorem moveWormW_skip (h : Inv P d) (hc : ¬ MoveWOk d) (u : Q) : (Move.moveWormW : Move Q).run P d u = skip d := by
  simp only [Move.run]
  by_cases c : d.order = 0 ∨ d.worm.exist = false
  · rw [if_pos c]
  rw [if_neg c]
  simp only [not_or, Bool.not_eq_false] at c
  have hI := h.worm.ira_mem c.2
  have hwm := h.topo.vW_mem _ hI
  unfold moveWormWCore
  simp only [deref_live hI, deref_live hwm, Res.ok_bind]
  by_cases c0 : d.sh.wV (d.sh.vW d.worm.ira) (!d.sh.vDir d.worm.ira) = d.worm.ira ∨
    d.sh.wV (d.sh.vW d.worm.ira) (!d.sh.vDir d.worm.ira) = d.worm.masha
  · rw [if_pos c0]
  rw [if_neg c0]
  rw [not_or] at c0
  have hk := h.worm.k_in c.2
  have hkW : InK (addK (d.mo.wK (d.sh.vW d.worm.ira)) (mulK (sgn (d.sh.vDir d.worm.ira)) d.worm.k)) :=
    addK_in (h.whash.mem _ hwm) (mulK_sgn_in _ hk)
  simp only [wHashCheck_ok _ hkW, Res.ok_bind]
  rw [if_pos]
  by_contra c1
  split_ifs at c1 with c2
  · exact c1 rfl
  · exact hc ⟨c, c0.2, c2, by simpa using c1⟩

theorem moveWormW_run (h : Inv P d) (hc : MoveWOk d) : ∃ wh, ∀ u, (Move.moveWormW : Move Q).run P d u =
      metropolis d d (P.mod (wExpected P d.sh d.co d.fl d.ext (d.sh.vW d.worm.ira) /
        d.wt.wWt (d.sh.vW d.worm.ira)) * (1 / d.worm.wt)) u (.ok (movedW P d wh)) := by
  obtain ⟨c, c0, c1, c2⟩ := hc
  have hI := h.worm.ira_mem c.2
  have hM := h.worm.masha_mem c.2
  have hwm := h.topo.vW_mem _ hI
  have hk := h.worm.k_in c.2
  have hkW : InK (addK (d.mo.wK (d.sh.vW d.worm.ira)) (mulK (sgn (d.sh.vDir d.worm.ira)) d.worm.k)) :=
    addK_in (h.whash.mem _ hwm) (mulK_sgn_in _ hk)
  have hv2 := h.topo.wV_mem _ hwm (!d.sh.vDir d.worm.ira)
  have eI := h.topo.wV_vW _ hI
  have hne : d.sh.wV (d.sh.vW d.worm.ira) (!d.sh.vDir d.worm.ira) ≠ d.worm.ira := fun q => by
    have := (h.topo.wV_inj hwm hwm (q.trans eI.symm)).2
    simp at this
  obtain ⟨wh, ewh, -⟩ := replaceWHash_ok h.whash hwm hkW c1 c2
  refine ⟨wh, fun u => ?_⟩
  have hdm : d.fl.wDelta (d.sh.vW d.worm.ira) = true → d.fl.wMeas (d.sh.vW d.worm.ira) = false :=
    fun e => (h.delta _ hwm e).1
  simp only [Move.run]
  rw [if_neg (by simp [c])]
  unfold moveWormWCore
  simp only [deref_live hI, deref_live hM, deref_live hwm, deref_live hv2, Res.ok_bind]
  rw [if_neg (by simp [c0, hne])]
  simp only [wHashCheck_ok _ hkW, Res.ok_bind, c1, c2, if_false]
  have e4 := wW_line h.topo hI P d.ext d.co.r d.co.tau d.co.spin (d.fl.wWorm (d.sh.vW d.worm.ira))
    (d.fl.wMeas (d.sh.vW d.worm.ira)) (d.fl.wDelta (d.sh.vW d.worm.ira)) (d.fl.wGam (d.sh.vW d.worm.ira)) hdm
  rw [e4, ewh, if_neg (by simp)]
  rfl

theorem sgn_not (e : Dir) : sgn (!e) = - sgn e := by cases e <;> rfl

theorem moveWormW_bal (hP : P.Wf) (h : Inv P d) (h' : Inv P d') {u p : Q} (hu : 0 ≤ u)
    {out : Out Q F}
    (e : (Move.moveWormW : Move Q).run P d u = .ok out) (ha : out.tag = .accept) (hd : out.d = d')
    (hp : out.prob = p) : Bal P d Move.moveWormW d' p := by
  by_cases hc : MoveWOk d
  swap
  · rw [moveWormW_skip h hc] at e; exact absurd ha (fun q => skip_not_accept e q)
  obtain ⟨wh, er⟩ := moveWormW_run h hc
  rw [er] at e
  have hpos : 0 < p := hp ▸ metropolis_pos hu e ha
  obtain ⟨q1, q2, hacc⟩ := metropolis_accept e ha
  rw [hp] at q1
  rw [hd] at q2
  obtain ⟨⟨ho, hex⟩, hnm, hk0, hkf⟩ := hc
  have hI := h.worm.ira_mem hex
  have hw := h.topo.vW_mem _ hI
  have hk := h.worm.k_in hex
  have hwt1 := h.worm.wt hex
  have eI := h.topo.wV_vW _ hI
  have eM := h.worm.ne hex
  have eV := h.topo.vW_wV _ hw (!d.sh.vDir d.worm.ira)
  have eD := h.topo.vDir_wV _ hw (!d.sh.vDir d.worm.ira)
  have hkm : InK (mulK (sgn (d.sh.vDir d.worm.ira)) d.worm.k) := mulK_sgn_in _ hk
  subst q2
  generalize hwdef : d.sh.vW d.worm.ira = w at *
  generalize hdir : d.sh.vDir d.worm.ira = dir at *
  have hw0 := h.line.w_ne w hw
  have hX : wExpected P d.sh d.co d.fl d.ext w = d.wt.wWt w := (h.line.w_eq w hw).symm
  rw [hX, div_self hw0, map_one, hwt1] at q1
  have hkW : InK (addK (d.mo.wK w) (mulK (sgn dir) d.worm.k)) := addK_in (h.whash.mem w hw) hkm
  have ek : addK (addK (d.mo.wK w) (mulK (sgn dir) d.worm.k)) (mulK (sgn (!dir)) d.worm.k) = d.mo.wK w := by
    refine InK.eq_of_dvd (addK_in hkW (mulK_sgn_in _ hk)) (h.whash.mem w hw) ?_
    have a1 := addK_dvd (addK (d.mo.wK w) (mulK (sgn dir) d.worm.k)) (mulK (sgn (!dir)) d.worm.k)
    have a2 := addK_dvd (d.mo.wK w) (mulK (sgn dir) d.worm.k)
    have a3 := mulK_dvd (sgn dir) d.worm.k
    have a4 := mulK_dvd (sgn (!dir)) d.worm.k
    rw [sgn_not] at a1 a4 ⊢
    rw [mul_neg] at a4
    omega
  have hhash := h'.whash
  have hcr : MoveWOk (movedW P d wh) := by
    refine ⟨⟨ho, hex⟩, ?_, ?_, ?_⟩
    · simp only [movedW, hwdef, hdir, eV, eD, Bool.not_not, eI]; exact eM
    · simp only [movedW, hwdef, hdir, eV, eD, upd_same]; rw [ek]; exact h.whash.ne w hw
    · simp only [movedW, hwdef, hdir, eV, eD, upd_same]; rw [ek]
      by_contra hh
      obtain ⟨w', hw', e'⟩ := (hhash.hash _).1 (by simpa [movedW] using hh)
      simp only [movedW, hwdef, hdir, upd_apply] at e'
      split_ifs at e' with q
      · have := (h.whash.hash |addK (d.mo.wK w) (mulK (sgn dir) d.worm.k)|).2 ⟨w, hw, e'.symm⟩
        rw [hkf] at this; cases this
      · exact q (h.whash.inj w' hw' w hw e')
  obtain ⟨wh', er'⟩ := moveWormW_run h' hcr
  have hratio : wExpected P (movedW P d wh).sh (movedW P d wh).co (movedW P d wh).fl (movedW P d wh).ext
      ((movedW P d wh).sh.vW (movedW P d wh).worm.ira) /
      (movedW P d wh).wt.wWt ((movedW P d wh).sh.vW (movedW P d wh).worm.ira) = 1 := by
    simp only [movedW, hwdef, hdir, eV, upd_same]
    rw [div_self]; rw [hX]; exact hw0
  rw [hratio, map_one] at er'
  refine bal_intro hP h h' hpos (m := .moveWormW) ⟨idx_lt P (op := .moveWormW) (by decide), trivial⟩ rfl
    (d'' := movedW P (movedW P d wh) wh') ?_ (SameCells.parts ?_) ?_
  · refine proposes_metropolis (rej := movedW P d wh) (h'.order_lt hP) fun u' => ?_
    refine (er' u').trans ?_
    congr 1
    rw [q1]
    simp [movedW]
  · constructor <;> first
      | (intros; rfl)
      | (intros; simp [movedW, hwdef, hdir, eV, eD, upd_apply, hex] ; done)
      | skip
    · intro w' _; simp only [movedW, hwdef, hdir, eV, eD, upd_apply]; split_ifs with q
      · rw [q]; exact ek
      · rfl
    · intro _
      simp only [movedW, hwdef, hdir, eV, eD, Bool.not_not, eI]
      rw [← hwt1]
  · rw [q1]
    simp only [target, Move.density, Move.rev, movedW, hex, map_mul, map_div₀, if_true, hwdef, hX, div_self hw0, hwt1,
      map_one]
    ring

end
end Feyn
