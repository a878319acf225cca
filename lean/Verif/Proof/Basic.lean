import Mathlib.Algebra.Order.Field.Basic
import Mathlib.Tactic.FieldSimp
import Mathlib.Tactic.Positivity
import Mathlib.Tactic.Linarith
import Mathlib.Algebra.BigOperators.Group.Finset.Piecewise
import Mathlib.Algebra.BigOperators.Field
import Verif.Proof.Bundle
import Verif.Proof.Momentum
import Verif.Spec.Inv

/-! # Basic lemmas for the update proofs -/

set_option linter.unusedSectionVars false
set_option linter.unusedSimpArgs false

namespace Feyn

theorem deref_ok {p : ℕ} (h : p < MAX_BUNDLE) : deref p = .ok () := by simp [deref, h]

theorem deref_live {b : Bundle} {p : ℕ} (h : p ∈ b.live) : deref p = .ok () :=
  deref_ok (Bundle.live_lt h)

@[simp] theorem upd_same {β : Type*} (f : ℕ → β) (a : ℕ) (b : β) : upd f a b a = b := by simp [upd]
theorem upd_ne {β : Type*} (f : ℕ → β) {a x : ℕ} (b : β) (h : x ≠ a) : upd f a b x = f x := by
  simp [upd, h]
@[simp] theorem upd2_same {β : Type*} (f : ℕ → Dir → β) (a : ℕ) (e : Dir) (b : β) :
    upd2 f a e b a e = b := by simp [upd2]
theorem upd2_ne {β : Type*} (f : ℕ → Dir → β) {a x : ℕ} (e e' : Dir) (b : β) (h : x ≠ a) :
    upd2 f a e b x e' = f x e' := by simp [upd2, h]
theorem upd2_ne' {β : Type*} (f : ℕ → Dir → β) (a x : ℕ) {e e' : Dir} (b : β) (h : e' ≠ e) :
    upd2 f a e b x e' = f x e' := by simp [upd2, h]

theorem exists_ok_of_le {α : Type} {r : Res α} : (∃ a, r = .ok a) ↔ r.isOk = true := by
  cases r <;> simp [Res.isOk]

/-! ## Random numbers -/

theorem irn_spec (w : Word) {lo hi : ℤ} (h : lo ≤ hi) :
    ∃ k, irn w lo hi = .ok k ∧ lo ≤ k ∧ k ≤ hi := by
  have h0 : ¬ (hi - lo + 1 ≤ 0) := by omega
  refine ⟨(w.val : ℤ) % (hi - lo + 1) + lo, by simp [irn, h0], ?_, ?_⟩
  · have := Int.emod_nonneg (w.val : ℤ) (show hi - lo + 1 ≠ 0 by omega); omega
  · have := Int.emod_lt_of_pos (w.val : ℤ) (show 0 < hi - lo + 1 by omega); omega

section
variable {Q F : Type} [Field Q] [LinearOrder Q] [IsStrictOrderedRing Q] [Field F]

omit [Field F] in
theorem urn_nonneg (w : Word) : 0 ≤ urn Q w := by
  have hw := w.isLt
  unfold urn
  have h2 : (-2147483648 : Q) ≤ ((if w.val < 2147483648 then (w.val : ℤ) else (w.val : ℤ) - 4294967296 : ℤ) : Q) := by
    have : (-2147483648 : ℤ) ≤ (if w.val < 2147483648 then (w.val : ℤ) else (w.val : ℤ) - 4294967296) := by
      split_ifs <;> omega
    exact_mod_cast this
  have : (-2147483648 : Q) / 4294967296 ≤ ((if w.val < 2147483648 then (w.val : ℤ) else (w.val : ℤ) - 4294967296 : ℤ) : Q) / 4294967296 :=
    div_le_div_of_nonneg_right h2 (by norm_num)
  have e : (-2147483648 : Q) / 4294967296 = -(1/2) := by norm_num
  linarith

omit [Field F] in
theorem urn_lt_one (w : Word) : urn Q w < 1 := by
  have hw := w.isLt
  unfold urn
  have h2 : ((if w.val < 2147483648 then (w.val : ℤ) else (w.val : ℤ) - 4294967296 : ℤ) : Q) < 2147483648 := by
    have : (if w.val < 2147483648 then (w.val : ℤ) else (w.val : ℤ) - 4294967296) < 2147483648 := by
      split_ifs <;> omega
    exact_mod_cast this
  have : ((if w.val < 2147483648 then (w.val : ℤ) else (w.val : ℤ) - 4294967296 : ℤ) : Q) / 4294967296
      < 2147483648 / 4294967296 :=
    div_lt_div_of_pos_right h2 (by norm_num)
  have e : (2147483648 : Q) / 4294967296 = 1/2 := by norm_num
  linarith

theorem pickK_spec (w : Word) : ∃ k, pickK w = .ok k ∧ InK k := by
  obtain ⟨k, h1, h2, h3⟩ := irn_spec w (show (-10000 : ℤ) ≤ 10000 by norm_num)
  have hk : InK k := ⟨h2, h3⟩
  exact ⟨k, by simp [pickK, h1, ofInt, shiftK_of_in hk], hk⟩

theorem pickDSpin_spec (w : Word) : ∃ k, pickDSpin w = .ok k ∧ (k = 1 ∨ k = -1) := by
  obtain ⟨k, h1, h2, h3⟩ := irn_spec w (show (0 : ℤ) ≤ 1 by norm_num)
  exact ⟨k * 2 - 1, by simp [pickDSpin, h1], by omega⟩

theorem pickDir_spec (w : Word) : ∃ e, pickDir w = .ok e := by
  obtain ⟨k, h1, h2, h3⟩ := irn_spec w (show (0 : ℤ) ≤ 1 by norm_num)
  exact ⟨_, by simp only [pickDir, h1, Res.ok_bind]; rfl⟩

theorem pickSpin_spec (w : Word) : ∃ e, pickSpin w = .ok e := by
  obtain ⟨k, h1, h2, h3⟩ := irn_spec w (show (0 : ℤ) ≤ 1 by norm_num)
  exact ⟨_, by simp only [pickSpin, h1, Res.ok_bind]; rfl⟩

theorem pickSite_spec {P : Params Q F} (hP : P.Wf) (w0 w1 w2 : Word) :
    ∃ r, pickSite P w0 w1 w2 = .ok r ∧ SiteIn P r := by
  have hx := hP.lx_pos
  have hy := hP.ly_pos
  have hs := hP.nsub_pos
  obtain ⟨x, hx1, hx2, hx3⟩ := irn_spec w0 (show (0 : ℤ) ≤ (P.lx : ℤ) - 1 by omega)
  obtain ⟨y, hy1, hy2, hy3⟩ := irn_spec w1 (show (0 : ℤ) ≤ (P.ly : ℤ) - 1 by omega)
  obtain ⟨s, hs1, hs2, hs3⟩ := irn_spec w2 (show (0 : ℤ) ≤ (P.nsub : ℤ) - 1 by omega)
  refine ⟨⟨s, x, y⟩, by simp [pickSite, hx1, hy1, hs1], ?_⟩
  unfold SiteIn; simp only; omega

theorem pickTau_in {P : Params Q F} (hP : P.Wf) (w : Word) : TauIn P (pickTau P w) := by
  have hb := hP.beta_pos
  have h0 : 0 ≤ urn Q w := urn_nonneg w
  have h1 : urn Q w < 1 := urn_lt_one w
  constructor
  · exact mul_nonneg h0 hb.le
  · have := mul_lt_mul_of_pos_right h1 hb
    rwa [one_mul] at this

theorem orderRW_ok {P : Params Q F} (hP : P.Wf) {i : ℕ} (h : i ≤ P.maxOrd) : ∃ x, orderRW P i = .ok x := by
  have := hP.rw_len
  have hi : i < P.orderRW.length := by omega
  refine ⟨P.orderRW[i], ?_⟩
  simp [orderRW, hi]

/-! ## Acceptance -/

omit [Field F] [IsStrictOrderedRing Q] in
theorem metropolis_ok {d rej d' : Diag Q F} {prob u : Q} {acc : Res (Diag Q F)} (ho : d.order < MAX_ORDER)
    (ha : acc = .ok d') :
    metropolis d rej prob u acc =
      if 1 ≤ prob ∨ u < prob then .ok ⟨.accept, prob, d'⟩ else .ok ⟨.reject, prob, rej⟩ := by
  subst ha; simp [metropolis, ho]

/-- An accepted proposal has a non-zero ratio. -/
theorem ratio_ne_zero {P : Params Q F} {ratio : F} {c u : Q} (hu : 0 ≤ u)
    (h : 1 ≤ P.mod ratio * c ∨ u < P.mod ratio * c) : ratio ≠ 0 := by
  rintro rfl
  simp only [map_zero, zero_mul] at h
  rcases h with h | h
  · exact absurd h (by norm_num)
  · exact absurd h (not_lt.2 hu)

/-! ## Weight look-up -/

omit [IsStrictOrderedRing Q] in
theorem gW_eq (P : Params Q F) (e : Ext Q) (dir : Dir) (r1 r2 : Site) (t1 t2 : Q) (s1 s2 : Spin)
    (m gm : Bool) :
    gW P e dir r1 r2 t1 t2 s1 s2 m gm =
      if dir = IN then gW0 P e r1 r2 t1 t2 s1 s2 m gm else gW0 P e r2 r1 t2 t1 s2 s1 m gm := by
  cases dir <;> simp [gW, gW0]

omit [IsStrictOrderedRing Q] in
theorem wW_eq (P : Params Q F) (e : Ext Q) (dir : Dir) (r1 r2 : Site) (t1 t2 : Q) (s1 s2 : Dir → Spin)
    (wm m dl gm : Bool) (h : dl = true → m = false) :
    wW P e dir r1 r2 t1 t2 s1 s2 wm m dl gm =
      if dir = IN then wW0 P e r1 r2 t1 t2 s1 s2 wm m dl gm
      else wW0 P e r2 r1 t2 t1 s2 s1 wm m dl gm := by
  cases dir <;> cases dl <;> cases m <;> simp_all [wW, wW0]

omit [IsStrictOrderedRing Q] in
/-- On a line carrying a worm end the spins are irrelevant. -/
theorem wW0_worm (P : Params Q F) (e : Ext Q) (r1 r2 : Site) (t1 t2 : Q) (s1 s2 s1' s2' : Dir → Spin)
    (m dl gm : Bool) :
    wW0 P e r1 r2 t1 t2 s1 s2 true m dl gm = wW0 P e r1 r2 t1 t2 s1' s2' true m dl gm := by
  simp [wW0]

omit [IsStrictOrderedRing Q] in
/-- The external point matters only for composite lines. -/
theorem gW0_ext (P : Params Q F) (e e' : Ext Q) (r1 r2 : Site) (t1 t2 : Q) (s1 s2 : Spin) (m : Bool) :
    gW0 P e r1 r2 t1 t2 s1 s2 m false = gW0 P e' r1 r2 t1 t2 s1 s2 m false := by
  simp [gW0]

omit [IsStrictOrderedRing Q] in
theorem wW0_ext (P : Params Q F) (e e' : Ext Q) (r1 r2 : Site) (t1 t2 : Q) (s1 s2 : Dir → Spin)
    (wm m dl : Bool) :
    wW0 P e r1 r2 t1 t2 s1 s2 wm m dl false = wW0 P e' r1 r2 t1 t2 s1 s2 wm m dl false := by
  simp [wW0]

/-- Weight of the interaction line of `v` as seen from `v`. -/
theorem wW_line {V G W : Finset ℕ} {s : Shape} (h : TopoOk V G W s) {v : ℕ} (hv : v ∈ V) (P : Params Q F)
    (e : Ext Q) (r : ℕ → Site) (t : ℕ → Q) (sp : ℕ → Dir → Spin) (wm m dl gm : Bool)
    (hd : dl = true → m = false) :
    wW P e (s.vDir v) (r v) (r (s.wV (s.vW v) (!s.vDir v))) (t v) (t (s.wV (s.vW v) (!s.vDir v)))
      (sp v) (sp (s.wV (s.vW v) (!s.vDir v))) wm m dl gm =
    wW0 P e (r (s.wV (s.vW v) IN)) (r (s.wV (s.vW v) OUT)) (t (s.wV (s.vW v) IN)) (t (s.wV (s.vW v) OUT))
      (sp (s.wV (s.vW v) IN)) (sp (s.wV (s.vW v) OUT)) wm m dl gm := by
  have hv1 := h.wV_vW v hv
  rw [wW_eq _ _ _ _ _ _ _ _ _ _ _ _ _ hd]
  rcases hvd : s.vDir v <;> rw [hvd] at hv1 <;> simp [hv1]

/-- Weight of a fermion line seen from its `!dir` end. -/
theorem gW_line (s : Shape) (g : ℕ) (dir : Dir) (P : Params Q F)
    (e : Ext Q) (r : ℕ → Site) (t : ℕ → Q) (sp : ℕ → Dir → Spin) (m gm : Bool) :
    gW P e (!dir) (r (s.gV g (!dir))) (r (s.gV g dir)) (t (s.gV g (!dir))) (t (s.gV g dir))
      (sp (s.gV g (!dir)) dir) (sp (s.gV g dir) (!dir)) m gm =
    gW0 P e (r (s.gV g IN)) (r (s.gV g OUT)) (t (s.gV g IN)) (t (s.gV g OUT))
      (sp (s.gV g IN) OUT) (sp (s.gV g OUT) IN) m gm := by
  rw [gW_eq]
  cases dir <;> simp

/-! ## Products -/

omit [Field Q] [LinearOrder Q] [IsStrictOrderedRing Q] in
theorem prod_upd {S : Finset ℕ} {f : ℕ → F} {g : ℕ} {b : F} (hg : g ∈ S) (h0 : f g ≠ 0) :
    ∏ x ∈ S, upd f g b x = (∏ x ∈ S, f x) * (b / f g) := by
  have e1 : ∏ x ∈ S, upd f g b x = b * ∏ x ∈ S.erase g, f x := by
    rw [← Finset.mul_prod_erase S _ hg]
    simp only [upd_same]
    congr 1
    apply Finset.prod_congr rfl
    intro x hx
    exact upd_ne _ _ (Finset.ne_of_mem_erase hx)
  rw [e1, ← Finset.mul_prod_erase S f hg]
  field_simp

omit [Field Q] [LinearOrder Q] [IsStrictOrderedRing Q] in
theorem total_updW {G W : Finset ℕ} {gw ww : ℕ → F} {sfl : ℤ} {N w : ℕ} {X : F} (hw : w ∈ W)
    (h0 : ww w ≠ 0) :
    totalWeight G W ⟨gw, upd ww w X⟩ sfl N = totalWeight G W ⟨gw, ww⟩ sfl N * (X / ww w) := by
  unfold totalWeight; rw [prod_upd hw h0]; ring

omit [Field Q] [LinearOrder Q] [IsStrictOrderedRing Q] in
theorem total_updG {G W : Finset ℕ} {gw ww : ℕ → F} {sfl : ℤ} {N g : ℕ} {X : F} (hg : g ∈ G)
    (h0 : gw g ≠ 0) :
    totalWeight G W ⟨upd gw g X, ww⟩ sfl N = totalWeight G W ⟨gw, ww⟩ sfl N * (X / gw g) := by
  unfold totalWeight; rw [prod_upd hg h0]; ring

omit [Field Q] [LinearOrder Q] [IsStrictOrderedRing Q] in
theorem prod_congr_live {S : Finset ℕ} {f g : ℕ → F} (h : ∀ x ∈ S, f x = g x) :
    ∏ x ∈ S, f x = ∏ x ∈ S, g x := Finset.prod_congr rfl h

end

/-! ## Hash tables -/

theorem gHashCheck_ok (h : ℤ → Bool) {k : ℤ} (hk : InK k) : gHashCheck h k = .ok (h k) := by
  have : 0 ≤ indexK k ∧ indexK k ≤ 2 * 10000 := by unfold InK at hk; unfold indexK; omega
  rw [gHashCheck, if_pos this]

theorem abs_le_of_in {k : ℤ} (hk : InK k) : |k| ≤ 10000 := by
  unfold InK at hk; exact abs_le.2 ⟨by omega, by omega⟩

theorem index_of_in {k : ℤ} (hk : InK k) : 0 ≤ indexK k ∧ indexK k ≤ 2 * 10000 := by
  unfold InK at hk; unfold indexK; omega

theorem wHashCheck_ok (h : ℤ → Bool) {k : ℤ} (hk : InK k) :
    wHashCheck h k = .ok (if k = 0 then true else h |k|) := by
  have := abs_le_of_in hk
  unfold wHashCheck absK
  split_ifs <;> rfl

theorem gHashCheck_spec (h : ℤ → Bool) {k : ℤ} (hk : InK k) :
    ∃ b, gHashCheck h k = .ok b ∧ (b = false → h k = false) :=
  ⟨_, gHashCheck_ok h hk, id⟩

theorem wHashCheck_spec (h : ℤ → Bool) {k : ℤ} (hk : InK k) :
    ∃ b, wHashCheck h k = .ok b ∧ (b = false → k ≠ 0 ∧ h |k| = false) := by
  refine ⟨_, wHashCheck_ok h hk, ?_⟩
  split_ifs with c
  · intro e; cases e
  · exact fun e => ⟨c, e⟩

theorem addGHash_ok {h : ℤ → Bool} {k : ℤ} (hk : InK k) (hn : h k = false) :
    addGHash h k = .ok (fun x => if x = k then true else h x) := by
  rw [addGHash, if_pos (index_of_in hk), hn]; rfl

theorem removeGHash_ok {h : ℤ → Bool} {k : ℤ} (hk : InK k) (hn : h k = true) :
    removeGHash h k = .ok (fun x => if x = k then false else h x) := by
  rw [removeGHash, if_pos (index_of_in hk), hn]; rfl

theorem addWHash_ok {h : ℤ → Bool} {k : ℤ} (hk : InK k) (hn : h |k| = false) :
    addWHash h k = .ok (fun x => if x = |k| then true else h x) := by
  unfold addWHash absK
  rw [if_pos (abs_le_of_in hk), hn]; rfl

theorem removeWHash_ok {h : ℤ → Bool} {k : ℤ} (hk : InK k) (hn : h |k| = true) :
    removeWHash h k = .ok (fun x => if x = |k| then false else h x) := by
  unfold removeWHash absK
  rw [if_pos (abs_le_of_in hk), hn]; rfl

/-- Replacing the momentum of one fermion line by an unused one. -/
theorem replaceGHash_ok {G : Finset ℕ} {gK : ℕ → ℤ} {gh : ℤ → Bool} (h : GHashOk G gK gh) {g : ℕ}
    (hg : g ∈ G) {k : ℤ} (hk : InK k) (hn : gh k = false) :
    ∃ gh', replaceGHash gh (gK g) k = .ok gh' ∧ GHashOk G (upd gK g k) gh' := by
  have hold : gh (gK g) = true := (h.hash _).2 ⟨g, hg, rfl⟩
  have hne : k ≠ gK g := by rintro rfl; simp [hold] at hn
  have hfree : ∀ g' ∈ G, gK g' ≠ k := by
    intro g' hg' e
    have := (h.hash k).2 ⟨g', hg', e⟩
    simp [this] at hn
  refine ⟨fun x => if x = k then true else if x = gK g then false else gh x, ?_, ?_⟩
  · rw [replaceGHash, removeGHash_ok (h.mem g hg) hold]
    simp only [Res.ok_bind]
    rw [addGHash_ok hk (by simp [hne, hn])]
  · constructor
    · intro g' hg'; unfold upd; split_ifs
      · exact hk
      · exact h.mem g' hg'
    · intro a ha b hb; unfold upd; split_ifs with h1 h2 h2
      · intro _; rw [h1, h2]
      · intro e; exact absurd e.symm (hfree b hb)
      · intro e; exact absurd e (hfree a ha)
      · exact h.inj a ha b hb
    · intro x
      by_cases e1 : x = k
      · simp only [e1, if_true, true_iff]; exact ⟨g, hg, by simp⟩
      · simp only [e1, if_false]
        by_cases e2 : x = gK g
        · simp only [e2, if_true]
          constructor
          · intro hf; simp at hf
          · rintro ⟨g', hg', e⟩
            unfold upd at e; split_ifs at e with h1
            · exact absurd e hne
            · exact absurd (h.inj g' hg' g hg e) h1
        · simp only [e2, if_false, h.hash x]
          constructor
          · rintro ⟨g', hg', e⟩
            refine ⟨g', hg', ?_⟩
            rw [upd_ne _ _ (by rintro rfl; exact e2 e.symm)]; exact e
          · rintro ⟨g', hg', e⟩
            unfold upd at e; split_ifs at e with h1
            · exact absurd e.symm e1
            · exact ⟨g', hg', e⟩

/-- Replacing the momentum of one interaction line by an unused one. -/
theorem replaceWHash_ok {W : Finset ℕ} {wK : ℕ → ℤ} {wh : ℤ → Bool} (h : WHashOk W wK wh) {w : ℕ}
    (hw : w ∈ W) {k : ℤ} (hk : InK k) (h0 : k ≠ 0) (hn : wh |k| = false) :
    ∃ wh', replaceWHash wh (wK w) k = .ok wh' ∧ WHashOk W (upd wK w k) wh' := by
  have hold : wh |wK w| = true := (h.hash _).2 ⟨w, hw, rfl⟩
  have hne : |k| ≠ |wK w| := by intro e; rw [e] at hn; simp [hold] at hn
  have hfree : ∀ w' ∈ W, |wK w'| ≠ |k| := by
    intro w' hw' e
    have := (h.hash |k|).2 ⟨w', hw', e⟩
    simp [this] at hn
  refine ⟨fun x => if x = |k| then true else if x = |wK w| then false else wh x, ?_, ?_⟩
  · rw [replaceWHash, removeWHash_ok (h.mem w hw) hold]
    simp only [Res.ok_bind]
    rw [addWHash_ok hk (by simp [hne, hn])]
  · constructor
    · intro w' hw'; unfold upd; split_ifs
      · exact hk
      · exact h.mem w' hw'
    · intro w' hw'; unfold upd; split_ifs
      · exact h0
      · exact h.ne w' hw'
    · intro a ha b hb; unfold upd; split_ifs with h1 h2 h2
      · intro _; rw [h1, h2]
      · intro e; exact absurd e.symm (hfree b hb)
      · intro e; exact absurd e (hfree a ha)
      · exact h.inj a ha b hb
    · intro x
      by_cases e1 : x = |k|
      · simp only [e1, if_true, true_iff]; exact ⟨w, hw, by simp⟩
      · simp only [e1, if_false]
        by_cases e2 : x = |wK w|
        · simp only [e2, if_true]
          constructor
          · intro hf; simp at hf
          · rintro ⟨w', hw', e⟩
            unfold upd at e; split_ifs at e with h1
            · exact absurd e hne
            · exact absurd (h.inj w' hw' w hw e) h1
        · simp only [e2, if_false, h.hash x]
          constructor
          · rintro ⟨w', hw', e⟩
            refine ⟨w', hw', ?_⟩
            rw [upd_ne _ _ (by rintro rfl; exact e2 e.symm)]; exact e
          · rintro ⟨w', hw', e⟩
            unfold upd at e; split_ifs at e with h1
            · exact absurd e.symm e1
            · exact ⟨w', hw', e⟩

end Feyn
