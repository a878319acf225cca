import Mathlib.Algebra.BigOperators.Intervals
import Verif.Model.Check
import Verif.Proof.Fix

/-!
# What the self check computes
-/

namespace Feyn

section loops

theorem loopM_unit {f : ℕ → Res Unit} (n : ℕ) :
    loopM (fun _ i => f i) () (List.range n) = .ok () ↔ ∀ i < n, f i = .ok () := by
  induction n with
  | zero => simp [loopM]
  | succ n ih =>
    rw [List.range_succ, loopM_append]
    constructor
    · intro h i hi
      cases e : loopM (fun _ i => f i) () (List.range n) with
      | ok a =>
        rw [e, Res.ok_bind] at h
        by_cases c : i = n
        · subst c
          simp only [loopM] at h
          cases e2 : f i with
          | ok => rfl
          | abort => rw [e2] at h; cases h
          | ub => rw [e2] at h; cases h
        · exact ih.1 e i (by omega)
      | abort => rw [e] at h; cases h
      | ub => rw [e] at h; cases h
    · intro h
      rw [ih.2 fun i hi => h i (by omega), Res.ok_bind]
      simp [loopM, h n (by omega)]

theorem loopM_count {f : ℕ → ℕ → Res ℕ} {p : ℕ → Prop} {c : ℕ → ℕ} (n : ℕ)
    (hf : ∀ i < n, ∀ s t, f s i = .ok t ↔ p i ∧ t = s + c i) (s t : ℕ) :
    loopM f s (List.range n) = .ok t ↔ (∀ i < n, p i) ∧ t = s + ∑ i ∈ Finset.range n, c i := by
  induction n generalizing t with
  | zero => simp [loopM, eq_comm]
  | succ n ih =>
    have ih := ih fun i hi => hf i (by omega)
    rw [List.range_succ, loopM_append, Finset.sum_range_succ]
    constructor
    · intro h
      cases e : loopM f s (List.range n) with
      | ok a =>
        rw [e, Res.ok_bind] at h
        simp only [loopM] at h
        cases e2 : f a n with
        | ok b =>
          rw [e2] at h
          rw [Res.ok_bind] at h
          cases h
          obtain ⟨h1, h2⟩ := (ih a).1 e
          obtain ⟨h3, h4⟩ := (hf n (by omega) a t).1 e2
          refine ⟨fun i hi => ?_, by omega⟩
          by_cases k : i = n
          · rw [k]; exact h3
          · exact h1 i (by omega)
        | abort => rw [e2] at h; cases h
        | ub => rw [e2] at h; cases h
      | abort => rw [e] at h; cases h
      | ub => rw [e] at h; cases h
    · rintro ⟨h1, h2⟩
      rw [(ih _).2 ⟨fun i hi => h1 i (by omega), rfl⟩, Res.ok_bind]
      simp only [loopM]
      rw [(hf n (by omega) _ t).2 ⟨h1 n (by omega), by omega⟩]
      rfl

theorem loopM_none {F : Type} {f : Option F → ℕ → Res (Option F)} (h0 : ∀ i, f none i = .ok none) (l : List ℕ) :
    loopM f none l = .ok none := by
  induction l with
  | nil => rfl
  | cons a as ih => simp only [loopM, h0, Res.ok_bind, ih]

theorem loopM_mul {F : Type} [Field F] {f : Option F → ℕ → Res (Option F)} {p : ℕ → Prop} {c : ℕ → F} (n : ℕ)
    (h0 : ∀ i, f none i = .ok none)
    (h1 : ∀ i < n, p i → ∀ s, f (some s) i = .ok (some (s * c i)))
    (h2 : ∀ i < n, ¬ p i → ∀ s, f (some s) i = .ok none) (s : F) :
    ((∀ i < n, p i) → loopM f (some s) (List.range n) = .ok (some (s * ∏ i ∈ Finset.range n, c i))) ∧
    ((¬ ∀ i < n, p i) → loopM f (some s) (List.range n) = .ok none) := by
  induction n with
  | zero => simp [loopM]
  | succ n ih =>
    obtain ⟨i1, i2⟩ := ih (fun i hi => h1 i (by omega)) (fun i hi => h2 i (by omega))
    rw [List.range_succ, loopM_append, Finset.prod_range_succ]
    constructor
    · intro h
      rw [i1 fun i hi => h i (by omega), Res.ok_bind]
      simp only [loopM]
      rw [h1 n (by omega) (h n (by omega)), Res.ok_bind, mul_assoc]
    · intro h
      by_cases k : ∀ i < n, p i
      · rw [i1 k, Res.ok_bind]
        simp only [loopM]
        rw [h2 n (by omega) (fun q => h fun i hi => by
          by_cases e : i = n
          · rw [e]; exact q
          · exact k i (by omega)), Res.ok_bind]
      · rw [i2 k, Res.ok_bind, loopM_none h0]

end loops

theorem forall_slot {b : Bundle} (h : b.Wf) {p : ℕ → Prop} : (∀ i < b.avail, p (b.slot i)) ↔ ∀ x ∈ b.live, p x := by
  constructor
  · intro q x hx
    obtain ⟨i, hi, rfl⟩ := (exists_slot_iff h x).2 hx
    exact q i hi
  · exact fun q i hi => q _ ((exists_slot_iff h _).1 ⟨i, hi, rfl⟩)

theorem sum_slot {b : Bundle} (h : b.Wf) (f : ℕ → ℕ) : ∑ j ∈ Finset.range b.avail, f (b.slot j) = ∑ p ∈ b.live, f p := by
  rw [Bundle.live_eq_image h, Finset.sum_image]
  intro i hi j hj e
  have := h.avail_le
  simp only [Finset.coe_range, Set.mem_Iio] at hi hj
  exact Bundle.slot_inj h (by omega) (by omega) e

theorem exist_ok_iff {b : Bundle} {p : ℕ} : b.exist p = .ok true ↔ p ∈ b.live := by
  unfold Bundle.exist
  rw [Bundle.mem_live]
  by_cases c : p = NULL
  · rw [if_pos c]
    constructor
    · intro h; cases h
    · intro h; omega
  · rw [if_neg c]
    by_cases c2 : p < MAX_BUNDLE
    · rw [if_pos c2]
      constructor
      · intro h
        simp only [Res.ok.injEq, decide_eq_true_eq] at h
        exact ⟨c2, h⟩
      · intro h
        simp only [Res.ok.injEq, decide_eq_true_eq]
        exact h.2
    · rw [if_neg c2]
      constructor
      · intro h; cases h
      · intro h; omega

section
variable {Q F : Type} [Field Q] [LinearOrder Q] [Field F] {P : Params Q F} {d : Diag Q F}

/-! ### Topology -/

omit [Field Q] [LinearOrder Q] [Field F] in
theorem checkGEnd_ok {g : ℕ} {e : Dir} :
    checkGEnd d g e = .ok () ↔ d.sh.gV g e ∈ d.Ver.live ∧ d.sh.vG (d.sh.gV g e) (!e) = g := by
  unfold checkGEnd
  dsimp only
  constructor
  · intro h
    cases k : d.Ver.exist (d.sh.gV g e) with
    | ok b =>
      rw [k, Res.ok_bind] at h
      cases b with
      | false =>
        rw [if_pos (by rfl)] at h
        unfold deref at h
        split at h <;> cases h
      | true =>
        rw [if_neg (by simp)] at h
        refine ⟨exist_ok_iff.1 k, ?_⟩
        by_contra c
        rw [if_pos (Ne.symm c)] at h
        cases h
    | abort => rw [k] at h; cases h
    | ub => rw [k] at h; cases h
  · rintro ⟨h1, h2⟩
    rw [exist_ok_iff.2 h1, Res.ok_bind, if_neg (by simp), if_neg (by simp [h2])]

omit [Field Q] [LinearOrder Q] [Field F] in
theorem checkWEnd_ok {w : ℕ} {e : Dir} :
    checkWEnd d w e = .ok () ↔
      d.sh.wV w e ∈ d.Ver.live ∧ d.sh.vW (d.sh.wV w e) = w ∧ d.sh.vDir (d.sh.wV w e) = e := by
  unfold checkWEnd
  dsimp only
  constructor
  · intro h
    cases k : d.Ver.exist (d.sh.wV w e) with
    | ok b =>
      rw [k, Res.ok_bind] at h
      cases b with
      | false =>
        rw [if_pos (by rfl)] at h
        unfold deref at h
        split at h <;> cases h
      | true =>
        rw [if_neg (by simp)] at h
        by_cases c : w ≠ d.sh.vW (d.sh.wV w e)
        · rw [if_pos c] at h; cases h
        · rw [if_neg c] at h
          by_cases c2 : d.sh.vDir (d.sh.wV w e) ≠ e
          · rw [if_pos c2] at h; cases h
          · exact ⟨exist_ok_iff.1 k, (not_not.1 c).symm, not_not.1 c2⟩
    | abort => rw [k] at h; cases h
    | ub => rw [k] at h; cases h
  · rintro ⟨h1, h2, h3⟩
    rw [exist_ok_iff.2 h1, Res.ok_bind, if_neg (by simp), if_neg (by simp [h2]), if_neg (by simp [h3])]

theorem Res.seq_ok {a b : Res Unit} : (a >>= fun _ => b) = .ok () ↔ a = .ok () ∧ b = .ok () := by
  cases a with
  | ok x => cases x; simp
  | abort => simp
  | ub => simp

omit [Field Q] [LinearOrder Q] [Field F] in
theorem checkTopo_ok (hG : d.G.Wf) (hW : d.W.Wf) (ho : d.order ≠ 0) :
    checkTopo d = .ok () ↔ d.G.avail = 2 * d.order ∧ d.W.avail = d.order ∧ d.Ver.avail = 2 * d.order ∧
      (∀ g ∈ d.G.live, ∀ e, d.sh.gV g e ∈ d.Ver.live ∧ d.sh.vG (d.sh.gV g e) (!e) = g) ∧
      (∀ w ∈ d.W.live, ∀ e, d.sh.wV w e ∈ d.Ver.live ∧ d.sh.vW (d.sh.wV w e) = w ∧ d.sh.vDir (d.sh.wV w e) = e) := by
  unfold checkTopo
  rw [if_neg ho]
  by_cases c1 : d.G.avail ≠ 2 * d.order
  · rw [if_pos c1]; exact ⟨nofun, fun h => absurd h.1 c1⟩
  rw [if_neg c1]
  by_cases c2 : d.W.avail ≠ d.order
  · rw [if_pos c2]; exact ⟨nofun, fun h => absurd h.2.1 c2⟩
  rw [if_neg c2]
  by_cases c3 : d.Ver.avail ≠ 2 * d.order
  · rw [if_pos c3]; exact ⟨nofun, fun h => absurd h.2.2.1 c3⟩
  rw [if_neg c3, Res.seq_ok, loopM_unit, loopM_unit]
  have a1 : ∀ i < d.G.avail, (checkTopoG d i = .ok () ↔
      ∀ e, d.sh.gV (d.G.slot i) e ∈ d.Ver.live ∧ d.sh.vG (d.sh.gV (d.G.slot i) e) (!e) = d.G.slot i) := by
    intro i hi
    have hm := Bundle.live_lt (Bundle.slot_mem_live hG hi)
    unfold checkTopoG
    rw [Bundle.get_spec hG hi, Res.ok_bind, deref_ok hm, Res.ok_bind, Res.seq_ok, checkGEnd_ok, checkGEnd_ok,
      Bool.forall_bool]
  have a2 : ∀ i < d.W.avail, (checkTopoW d i = .ok () ↔
      ∀ e, d.sh.wV (d.W.slot i) e ∈ d.Ver.live ∧ d.sh.vW (d.sh.wV (d.W.slot i) e) = d.W.slot i ∧
        d.sh.vDir (d.sh.wV (d.W.slot i) e) = e) := by
    intro i hi
    have hm := Bundle.live_lt (Bundle.slot_mem_live hW hi)
    unfold checkTopoW
    rw [Bundle.get_spec hW hi, Res.ok_bind, deref_ok hm, Res.ok_bind, Res.seq_ok, checkWEnd_ok, checkWEnd_ok,
      Bool.forall_bool]
  rw [← forall_slot hG (p := fun g => ∀ e, d.sh.gV g e ∈ d.Ver.live ∧ d.sh.vG (d.sh.gV g e) (!e) = g),
    ← forall_slot hW (p := fun w => ∀ e, d.sh.wV w e ∈ d.Ver.live ∧ d.sh.vW (d.sh.wV w e) = w ∧
      d.sh.vDir (d.sh.wV w e) = e)]
  refine ⟨fun h => ⟨not_not.1 c1, not_not.1 c2, not_not.1 c3, fun i hi => (a1 i hi).1 (h.1 i hi),
    fun i hi => (a2 i hi).1 (h.2 i hi)⟩, fun h => ⟨fun i hi => (a1 i hi).2 (h.2.2.2.1 i hi),
    fun i hi => (a2 i hi).2 (h.2.2.2.2 i hi)⟩⟩

/-! ### Status -/

omit [Field Q] [LinearOrder Q] [Field F] in
/-- The worm test of an interaction with usable worm pointers. -/
theorem checkStatusWorm_ok {w : ℕ} (hI : d.worm.exist = true → d.worm.ira < MAX_BUNDLE)
    (hM : d.worm.exist = true → d.worm.masha < MAX_BUNDLE) :
    checkStatusWorm d w = .ok () ↔
      (d.fl.wWorm w = true → d.worm.ira < MAX_BUNDLE ∧
        (d.sh.vW d.worm.ira = w ∨ d.worm.masha < MAX_BUNDLE ∧ d.sh.vW d.worm.masha = w)) ∧
      (d.fl.wWorm w = false → d.worm.exist = true → d.sh.vW d.worm.ira ≠ w ∧ d.sh.vW d.worm.masha ≠ w) := by
  unfold checkStatusWorm deref
  cases hw : d.fl.wWorm w with
  | true =>
    by_cases c1 : d.worm.ira < MAX_BUNDLE <;> by_cases c2 : d.sh.vW d.worm.ira = w <;>
      by_cases c3 : d.worm.masha < MAX_BUNDLE <;> by_cases c4 : d.sh.vW d.worm.masha = w <;>
      simp [c1, c2, c3, c4]
  | false =>
    cases he : d.worm.exist with
    | true =>
      have i := hI he
      have m := hM he
      by_cases c2 : d.sh.vW d.worm.ira = w <;> by_cases c4 : d.sh.vW d.worm.masha = w <;> simp [c2, c4, i, m]
    | false => simp

omit [Field Q] [Field F] in
theorem checkStatus_ok (hG : d.G.Wf) (hW : d.W.Wf) (ho : d.order ≠ 0)
    (hv : ∀ w ∈ d.W.live, ∀ e, d.sh.wV w e < MAX_BUNDLE) :
    checkStatus d = .ok () ↔
      (∀ g ∈ d.G.live, d.fl.gMeas g = true → g = d.gMeasure) ∧
      (∑ g ∈ d.G.live, if d.fl.gMeas g = true then 1 else 0) = (if d.measG = true then 1 else 0) ∧
      (∀ w ∈ d.W.live, checkStatusWorm d w = .ok () ∧ (d.fl.wDelta w = true →
        d.co.tau (d.sh.wV w IN) = d.co.tau (d.sh.wV w OUT) ∧ d.fl.wMeas w = false)) ∧
      (∑ w ∈ d.W.live, if d.fl.wMeas w = true then 1 else 0) = (if d.measG = true then 0 else 1) := by
  have b1 : ∀ i < d.G.avail, ∀ s t, checkStatusG d s i = .ok t ↔
      (d.fl.gMeas (d.G.slot i) = true → d.G.slot i = d.gMeasure) ∧
        t = s + (if d.fl.gMeas (d.G.slot i) = true then 1 else 0) := by
    intro i hi s t
    have hm := Bundle.live_lt (Bundle.slot_mem_live hG hi)
    unfold checkStatusG
    rw [Bundle.get_spec hG hi, Res.ok_bind, deref_ok hm, Res.ok_bind]
    by_cases c1 : d.fl.gMeas (d.G.slot i) = true
    · rw [if_pos c1, if_pos c1]
      by_cases c2 : d.G.slot i = d.gMeasure
      · rw [if_neg (not_not.2 c2)]
        exact ⟨fun h => ⟨fun _ => c2, (Res.ok.inj h).symm⟩, fun h => by rw [h.2]⟩
      · rw [if_pos c2]
        exact ⟨nofun, fun h => absurd (h.1 c1) c2⟩
    · rw [if_neg c1, if_neg c1]
      exact ⟨fun h => ⟨fun q => absurd q c1, (Res.ok.inj h).symm⟩, fun h => by rw [h.2]; rfl⟩
  have b2 : ∀ i < d.W.avail, ∀ s t, checkStatusW d s i = .ok t ↔
      (checkStatusWorm d (d.W.slot i) = .ok () ∧ (d.fl.wDelta (d.W.slot i) = true →
        d.co.tau (d.sh.wV (d.W.slot i) IN) = d.co.tau (d.sh.wV (d.W.slot i) OUT) ∧ d.fl.wMeas (d.W.slot i) = false)) ∧
        t = s + (if d.fl.wMeas (d.W.slot i) = true then 1 else 0) := by
    intro i hi s t
    have hm := Bundle.slot_mem_live hW hi
    have v0 := hv _ hm IN
    have v1 := hv _ hm OUT
    unfold checkStatusW
    rw [Bundle.get_spec hW hi, Res.ok_bind, deref_ok (Bundle.live_lt hm), Res.ok_bind]
    cases e : checkStatusWorm d (d.W.slot i) with
    | ok u =>
      rw [Res.ok_bind]
      by_cases c1 : d.fl.wDelta (d.W.slot i) = true
      · rw [if_pos c1, deref_ok v0, Res.ok_bind, deref_ok v1, Res.ok_bind]
        by_cases c2 : d.co.tau (d.sh.wV (d.W.slot i) IN) = d.co.tau (d.sh.wV (d.W.slot i) OUT)
        · rw [if_neg (by simp [c2])]
          by_cases c3 : d.fl.wMeas (d.W.slot i) = true
          · rw [if_pos c3]
            exact ⟨nofun, fun h => absurd c3 (by rw [(h.1.2 c1).2]; exact nofun)⟩
          · rw [if_neg c3, if_neg c3]
            exact ⟨fun h => ⟨⟨rfl, fun _ => ⟨c2, by simpa using c3⟩⟩, (Res.ok.inj h).symm⟩, fun h => by rw [h.2]; rfl⟩
        · rw [if_pos c2]
          exact ⟨nofun, fun h => absurd (h.1.2 c1).1 c2⟩
      · rw [if_neg c1]
        by_cases c3 : d.fl.wMeas (d.W.slot i) = true
        · rw [if_pos c3, if_pos c3]
          exact ⟨fun h => ⟨⟨rfl, fun q => absurd q c1⟩, (Res.ok.inj h).symm⟩, fun h => by rw [h.2]⟩
        · rw [if_neg c3, if_neg c3]
          exact ⟨fun h => ⟨⟨rfl, fun q => absurd q c1⟩, (Res.ok.inj h).symm⟩, fun h => by rw [h.2]; rfl⟩
    | abort => simp
    | ub => simp
  have l1 := loopM_count d.G.avail b1 0
  have l2 := loopM_count d.W.avail b2 0
  rw [forall_slot hG (p := fun g => d.fl.gMeas g = true → g = d.gMeasure),
    sum_slot hG (fun g => if d.fl.gMeas g = true then 1 else 0)] at l1
  rw [forall_slot hW (p := fun w => checkStatusWorm d w = .ok () ∧ (d.fl.wDelta w = true →
        d.co.tau (d.sh.wV w IN) = d.co.tau (d.sh.wV w OUT) ∧ d.fl.wMeas w = false)),
    sum_slot hW (fun w => if d.fl.wMeas w = true then 1 else 0)] at l2
  simp only [Nat.zero_add] at l1 l2
  unfold checkStatus
  rw [if_neg ho]
  constructor
  · intro h
    cases e1 : loopM (checkStatusG d) 0 (List.range d.G.avail) with
    | ok n =>
      rw [e1, Res.ok_bind] at h
      obtain ⟨p1, p2⟩ := (l1 n).1 e1
      by_cases c1 : n ≠ if d.measG = true then 1 else 0
      · rw [if_pos c1] at h; cases h
      rw [if_neg c1] at h
      cases e2 : loopM (checkStatusW d) 0 (List.range d.W.avail) with
      | ok m =>
        rw [e2, Res.ok_bind] at h
        obtain ⟨p3, p4⟩ := (l2 m).1 e2
        by_cases c2 : m ≠ if d.measG = true then 0 else 1
        · rw [if_pos c2] at h; cases h
        exact ⟨p1, p2 ▸ not_not.1 c1, p3, p4 ▸ not_not.1 c2⟩
      | abort => rw [e2] at h; cases h
      | ub => rw [e2] at h; cases h
    | abort => rw [e1] at h; cases h
    | ub => rw [e1] at h; cases h
  · rintro ⟨p1, p2, p3, p4⟩
    rw [(l1 _).2 ⟨p1, rfl⟩, Res.ok_bind, if_neg (not_not.2 p2), (l2 _).2 ⟨p3, rfl⟩, Res.ok_bind, if_neg (not_not.2 p4)]

/-! ### Momentum and spin -/

omit [Field Q] [LinearOrder Q] [Field F] in
theorem checkK_ok (hV : d.Ver.Wf) (ho : d.order ≠ 0)
    (hg : ∀ v ∈ d.Ver.live, ∀ e, d.sh.vG v e < MAX_BUNDLE) (hw : ∀ v ∈ d.Ver.live, d.sh.vW v < MAX_BUNDLE) :
    checkK d = .ok () ↔ ∀ v ∈ d.Ver.live, totalK d v = 0 := by
  unfold checkK
  rw [if_neg ho, loopM_unit, ← forall_slot hV (p := fun v => totalK d v = 0)]
  have a : ∀ i < d.Ver.avail, (checkKV d i = .ok () ↔ totalK d (d.Ver.slot i) = 0) := by
    intro i hi
    have hm := Bundle.slot_mem_live hV hi
    unfold checkKV
    rw [Bundle.get_spec hV hi, Res.ok_bind, deref_ok (Bundle.live_lt hm), Res.ok_bind, deref_ok (hg _ hm _), Res.ok_bind,
      deref_ok (hg _ hm _), Res.ok_bind, deref_ok (hw _ hm), Res.ok_bind]
    by_cases c : totalK d (d.Ver.slot i) = 0
    · rw [if_neg (not_not.2 c)]; simp [c]
    · rw [if_pos c]; simp [c]
  exact ⟨fun h i hi => (a i hi).1 (h i hi), fun h i hi => (a i hi).2 (h i hi)⟩

omit [Field Q] [LinearOrder Q] [Field F] in
theorem kbal_sub {a b k m w t x : ℤ} (s1 : (20001 : ℤ) ∣ k - (a - b)) (m2 : (20001 : ℤ) ∣ m - (k - w))
    (u : (20001 : ℤ) ∣ x - (m - t)) (u2 : InK x) : x = 0 ↔ (20001 : ℤ) ∣ a - b - w - t + 0 := by
  unfold InK at u2
  constructor <;> intro q <;> omega

theorem kbal_add {a b k m w t x : ℤ} (s1 : (20001 : ℤ) ∣ k - (a - b)) (m2 : (20001 : ℤ) ∣ m - (k - w))
    (u : (20001 : ℤ) ∣ x - (m + t)) (u2 : InK x) : x = 0 ↔ (20001 : ℤ) ∣ a - b - w - 0 + t := by
  unfold InK at u2
  constructor <;> intro q <;> omega

theorem kbal_none {a b k m w : ℤ} (s1 : (20001 : ℤ) ∣ k - (a - b)) (m2 : (20001 : ℤ) ∣ m - (k - w))
    (u2 : InK m) : m = 0 ↔ (20001 : ℤ) ∣ a - b - w - 0 + 0 := by
  unfold InK at u2
  constructor <;> intro q <;> omega

theorem kstep_sub {k w : ℤ} (h1 : InK k) (h2 : InK w) :
    InK (subAssignK k w) ∧ (20001 : ℤ) ∣ subAssignK k w - (k - w) :=
  ⟨shiftK_in (by unfold InK at *; omega) (by unfold InK at *; omega), shiftK_dvd _⟩

theorem kstep_add {k w : ℤ} (h1 : InK k) (h2 : InK w) :
    InK (addAssignK k w) ∧ (20001 : ℤ) ∣ addAssignK k w - (k + w) :=
  ⟨shiftK_in (by unfold InK at *; omega) (by unfold InK at *; omega), shiftK_dvd _⟩

theorem kstep_dir {k w : ℤ} (e : Dir) (h1 : InK k) (h2 : InK w) :
    InK (if e = IN then subAssignK k w else addAssignK k w) ∧
      (20001 : ℤ) ∣ (if e = IN then subAssignK k w else addAssignK k w) - (k - sgn e * w) := by
  cases e with
  | false =>
    rw [if_pos rfl, sgn_false, one_mul]
    exact kstep_sub h1 h2
  | true =>
    rw [if_neg (by simp), sgn_true, neg_one_mul, sub_neg_eq_add]
    exact kstep_add h1 h2

omit [Field Q] [LinearOrder Q] [Field F] in
/-- The balance computed by the check is zero exactly if momentum is conserved. -/
theorem totalK_zero {v : ℕ} (h1 : InK (d.mo.gK (d.sh.vG v IN))) (h2 : InK (d.mo.gK (d.sh.vG v OUT)))
    (h3 : InK (d.mo.wK (d.sh.vW v))) (h4 : d.worm.exist = true → InK d.worm.k)
    (h5 : d.worm.exist = true → d.worm.ira ≠ d.worm.masha) :
    totalK d v = 0 ↔ KConserved d.sh d.mo d.worm v := by
  have s1 := subK_dvd (d.mo.gK (d.sh.vG v IN)) (d.mo.gK (d.sh.vG v OUT))
  have s2 := subK_in h1 h2
  obtain ⟨m1, m2⟩ := kstep_dir (d.sh.vDir v) s2 h3
  unfold totalK KConserved
  dsimp only
  generalize subK (d.mo.gK (d.sh.vG v IN)) (d.mo.gK (d.sh.vG v OUT)) = k at s1 s2 m1 m2 ⊢
  generalize (if d.sh.vDir v = IN then subAssignK k (d.mo.wK (d.sh.vW v))
      else addAssignK k (d.mo.wK (d.sh.vW v))) = m at m1 m2 ⊢
  by_cases c1 : d.worm.exist = true ∧ v = d.worm.ira
  · have c2 : ¬ (d.worm.exist = true ∧ v = d.worm.masha) := fun q => h5 c1.1 (c1.2.symm.trans q.2)
    rw [if_pos c1, if_pos c1, if_neg c2]
    obtain ⟨u2, u⟩ := kstep_sub m1 (h4 c1.1)
    exact kbal_sub s1 m2 u u2
  · rw [if_neg c1, if_neg c1]
    by_cases c2 : d.worm.exist = true ∧ v = d.worm.masha
    · rw [if_pos c2, if_pos c2]
      obtain ⟨u2, u⟩ := kstep_add m1 (h4 c2.1)
      exact kbal_add s1 m2 u u2
    · rw [if_neg c2, if_neg c2]
      exact kbal_none s1 m2 m1

omit [Field Q] [LinearOrder Q] [Field F] in
theorem checkSpin_ok (hG : d.G.Wf) (ho : d.order ≠ 0) (hg : ∀ g ∈ d.G.live, ∀ e, d.sh.gV g e < MAX_BUNDLE) :
    checkSpin d = .ok () ↔ SpinOk d.G.live d.sh d.co.spin := by
  unfold checkSpin SpinOk
  rw [if_neg ho, loopM_unit, ← forall_slot hG (p := fun g => d.co.spin (d.sh.gV g IN) OUT = d.co.spin (d.sh.gV g OUT) IN)]
  have a : ∀ i < d.G.avail, (checkSpinG d i = .ok () ↔
      d.co.spin (d.sh.gV (d.G.slot i) IN) OUT = d.co.spin (d.sh.gV (d.G.slot i) OUT) IN) := by
    intro i hi
    have hm := Bundle.slot_mem_live hG hi
    unfold checkSpinG
    rw [Bundle.get_spec hG hi, Res.ok_bind, deref_ok (Bundle.live_lt hm), Res.ok_bind, deref_ok (hg _ hm _), Res.ok_bind,
      deref_ok (hg _ hm _), Res.ok_bind]
    by_cases c : d.co.spin (d.sh.gV (d.G.slot i) IN) OUT = d.co.spin (d.sh.gV (d.G.slot i) OUT) IN
    · rw [if_neg (not_not.2 c)]; simp [c]
    · rw [if_pos c]; simp [c]
  exact ⟨fun h i hi => (a i hi).1 (h i hi), fun h i hi => (a i hi).2 (h i hi)⟩

/-! ### Weights -/

/-- The test of one cached weight. -/
def WtNear (near : F → F → Bool) (x y : F) : Prop := near x y = true ∧ near x 0 = false

theorem checkWeight_eq {near : F → F → Bool} (hG : d.G.Wf) (hW : d.W.Wf) (ho : d.order ≠ 0)
    (hg : ∀ g ∈ d.G.live, ∀ e, d.sh.gV g e < MAX_BUNDLE) (hw : ∀ w ∈ d.W.live, ∀ e, d.sh.wV w e < MAX_BUNDLE) :
    ∃ b, checkWeight near P d = .ok b ∧ (b = true ↔
      (∀ g ∈ d.G.live, WtNear near (d.wt.gWt g) (gExpected P d.sh d.co d.fl d.ext g)) ∧
      (∀ w ∈ d.W.live, WtNear near (d.wt.wWt w) (wExpected P d.sh d.co d.fl d.ext w)) ∧
      near (totalWeight d.G.live d.W.live d.wt d.sfl d.order) d.weight = true) := by
  have b1 := loopM_mul (f := checkWeightG near P d) (n := d.G.avail) (c := fun i => d.wt.gWt (d.G.slot i))
    (p := fun i => WtNear near (d.wt.gWt (d.G.slot i)) (gExpected P d.sh d.co d.fl d.ext (d.G.slot i)))
    (fun _ => rfl) (by
      intro i hi hp s
      have hm := Bundle.slot_mem_live hG hi
      unfold checkWeightG
      dsimp only
      rw [Bundle.get_spec hG hi, Res.ok_bind, deref_ok (Bundle.live_lt hm), Res.ok_bind, deref_ok (hg _ hm _),
        Res.ok_bind, deref_ok (hg _ hm _), Res.ok_bind]
      obtain ⟨p1, p2⟩ := hp
      unfold gExpected at p1
      rw [p1, p2]; rfl) (by
      intro i hi hp s
      have hm := Bundle.slot_mem_live hG hi
      unfold checkWeightG
      dsimp only
      rw [Bundle.get_spec hG hi, Res.ok_bind, deref_ok (Bundle.live_lt hm), Res.ok_bind, deref_ok (hg _ hm _),
        Res.ok_bind, deref_ok (hg _ hm _), Res.ok_bind]
      unfold WtNear gExpected at hp
      split_ifs with c1 c2
      · rfl
      · rfl
      · exact absurd ⟨by simpa using c1, by simpa using c2⟩ hp)
  have b2 := loopM_mul (f := checkWeightW near P d) (n := d.W.avail) (c := fun i => d.wt.wWt (d.W.slot i))
    (p := fun i => WtNear near (d.wt.wWt (d.W.slot i)) (wExpected P d.sh d.co d.fl d.ext (d.W.slot i)))
    (fun _ => rfl) (by
      intro i hi hp s
      have hm := Bundle.slot_mem_live hW hi
      unfold checkWeightW
      dsimp only
      rw [Bundle.get_spec hW hi, Res.ok_bind, deref_ok (Bundle.live_lt hm), Res.ok_bind, deref_ok (hw _ hm _),
        Res.ok_bind, deref_ok (hw _ hm _), Res.ok_bind]
      obtain ⟨p1, p2⟩ := hp
      unfold wExpected at p1
      rw [p1, p2]; rfl) (by
      intro i hi hp s
      have hm := Bundle.slot_mem_live hW hi
      unfold checkWeightW
      dsimp only
      rw [Bundle.get_spec hW hi, Res.ok_bind, deref_ok (Bundle.live_lt hm), Res.ok_bind, deref_ok (hw _ hm _),
        Res.ok_bind, deref_ok (hw _ hm _), Res.ok_bind]
      unfold WtNear wExpected at hp
      split_ifs with c1 c2
      · rfl
      · rfl
      · exact absurd ⟨by simpa using c1, by simpa using c2⟩ hp)
  rw [forall_slot hG (p := fun g => WtNear near (d.wt.gWt g) (gExpected P d.sh d.co d.fl d.ext g)), prod_slot hG] at b1
  rw [forall_slot hW (p := fun w => WtNear near (d.wt.wWt w) (wExpected P d.sh d.co d.fl d.ext w)), prod_slot hW] at b2
  unfold checkWeight
  rw [if_neg ho]
  by_cases c1 : ∀ g ∈ d.G.live, WtNear near (d.wt.gWt g) (gExpected P d.sh d.co d.fl d.ext g)
  · rw [(b1 _).1 c1, Res.ok_bind]
    by_cases c2 : ∀ w ∈ d.W.live, WtNear near (d.wt.wWt w) (wExpected P d.sh d.co d.fl d.ext w)
    · rw [(b2 _).1 c2, Res.ok_bind]
      have e : (if d.order % 2 = 0 then (1 : F) else -1) = (-1) ^ d.order := by
        rcases Nat.even_or_odd d.order with k | k
        · rw [if_pos (Nat.even_iff.1 k), k.neg_one_pow]
        · rw [if_neg (by have := Nat.odd_iff.1 k; omega), k.neg_one_pow]
      refine ⟨_, rfl, ?_⟩
      rw [one_mul, e]
      exact ⟨fun h => ⟨c1, c2, h⟩, fun h => h.2.2⟩
    · rw [(b2 _).2 c2, Res.ok_bind]
      exact ⟨false, rfl, nofun, fun h => absurd h.2.1 c2⟩
  · rw [(b1 _).2 c1, Res.ok_bind, loopM_none (fun _ => rfl), Res.ok_bind]
    exact ⟨false, rfl, nofun, fun h => absurd h.1 c1⟩

end
end Feyn
