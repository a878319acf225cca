import Mathlib.Tactic.IntervalCases
import Verif.Proof.Basic
import Verif.Proof.Bundle
import Verif.Proof.Momentum
import Verif.Props.Demo

/-!
# Containers, momenta and random numbers (C19, C20, C21, C41)
-/

namespace Feyn

/-! ### C19, C20 -/

/-- Consistency along a history. -/
theorem BundleHist.wf {b : Bundle} {S : Finset ℕ} (h : BundleHist b S) : b.Wf ∧ b.live = S := by
  induction h with
  | init => exact ⟨Bundle.wf_init, Bundle.live_init⟩
  | @add b b' S p _ hc e ih =>
    obtain ⟨hw, rfl⟩ := ih
    rw [Bundle.card_live hw] at hc
    obtain ⟨q, b'', e', h1, -, -, h2, -⟩ := Bundle.add_spec hw hc
    rw [e] at e'; cases e'
    exact ⟨h1, h2⟩
  | @remove b b' S p _ hp e ih =>
    obtain ⟨hw, rfl⟩ := ih
    obtain ⟨b'', e', h1, h2, -⟩ := Bundle.remove_spec hw hp
    rw [e] at e'; cases e'
    exact ⟨h1, h2⟩
  | @removeName b b' S i p _ hg e ih =>
    obtain ⟨hw, rfl⟩ := ih
    have hi : i < b.avail := by
      by_contra c
      unfold Bundle.get at hg
      rw [if_pos (by omega)] at hg
      cases hg
    rw [Bundle.get_spec hw hi] at hg
    cases hg
    rw [Bundle.removeName_eq hw hi] at e
    obtain ⟨b'', e', h1, h2, -⟩ := Bundle.remove_spec hw (Bundle.slot_mem_live hw hi)
    rw [e] at e'; cases e'
    exact ⟨h1, h2⟩

/-- **C19.** After any history of calls the container is the finite set of the components added and not removed, with
dense numbering: `Exist` is membership, `HowMany` the number of elements, names are the numbers below it, each used once,
and look-up by name finds the component. Below capacity `Add` returns a new component and leaves all others their names;
removing a component of the set succeeds, and any other component is refused. -/
theorem C19_container_is_a_set {b : Bundle} {S : Finset ℕ} (h : BundleHist b S) :
    (∀ p ≤ NULL, b.exist p = .ok (decide (p ∈ S))) ∧
    b.avail = S.card ∧
    (∀ p ∈ S, p < MAX_BUNDLE ∧ b.name p < S.card ∧ b.get (b.name p) = .ok p) ∧
    (∀ i < S.card, ∃ p ∈ S, b.get i = .ok p ∧ b.name p = i) ∧
    (∀ p ∈ S, ∀ q ∈ S, b.name p = b.name q → p = q) ∧
    (∀ i ≥ S.card, b.get i = .abort) ∧
    (S.card < MAX_BUNDLE → ∃ p b', b.add = .ok (p, b') ∧ p ∉ S ∧ b'.name p = S.card ∧ ∀ q ∈ S, b'.name q = b.name q) ∧
    (∀ p ∈ S, ∃ b', b.remove p = .ok b') ∧
    (∀ p ≤ NULL, p ∉ S → b.remove p = .abort) ∧
    (∀ w, S.Nonempty → ∃ p ∈ S, b.pick w = .ok p) := by
  obtain ⟨hw, rfl⟩ := h.wf
  have hc := Bundle.card_live hw
  have hex : ∀ p ≤ NULL, b.exist p = .ok (decide (p ∈ b.live)) := by
    intro p hp
    unfold Bundle.exist
    by_cases c : p = NULL
    · rw [if_pos c]
      congr 1
      symm
      exact decide_eq_false fun q => by have := Bundle.live_lt q; omega
    · rw [if_neg c, if_pos (show p < MAX_BUNDLE by omega)]
      congr 1
      simp only [Bundle.mem_live]
      congr 1
      simp only [eq_iff_iff]
      constructor
      · exact fun q => ⟨by omega, q⟩
      · exact fun q => q.2
  rw [hc]
  refine ⟨hex, rfl, ?_, ?_, ?_, ?_, ?_, ?_, ?_, ?_⟩
  · intro p hp
    obtain ⟨h1, h2⟩ := Bundle.mem_live.1 hp
    refine ⟨h1, h2, ?_⟩
    rw [Bundle.get_spec hw h2, hw.slot_name p h1]
  · intro i hi
    have ha := hw.avail_le
    exact ⟨b.slot i, Bundle.slot_mem_live hw hi, Bundle.get_spec hw hi, hw.name_slot i (by omega)⟩
  · intro p hp q hq e
    exact Bundle.name_inj hw (Bundle.live_lt hp) (Bundle.live_lt hq) e
  · intro i hi
    unfold Bundle.get
    rw [if_pos hi]
  · intro hlt
    obtain ⟨p, b', e, -, -, h2, -, -, h3, h4, -⟩ := Bundle.add_spec hw hlt
    exact ⟨p, b', e, h2, h3, fun q _ => h4 q⟩
  · intro p hp
    obtain ⟨b', e, -⟩ := Bundle.remove_spec hw hp
    exact ⟨b', e⟩
  · intro p hp hn
    unfold Bundle.remove
    rw [hex p hp, decide_eq_false hn]
    rfl
  · intro w hne
    have hpos : 0 < b.avail := by rw [← hc]; exact Finset.card_pos.2 hne
    obtain ⟨p, e, hp⟩ := Bundle.pick_spec hw hpos w
    exact ⟨p, hp, e⟩

/-- Three additions and the removal of the first component: the last component takes its name. -/
example : ∃ b, BundleHist b {1, 2} ∧ b.name 2 = 0 := by
  have h1 : BundleHist _ _ := BundleHist.add (p := 0) BundleHist.init (by decide) rfl
  have h2 : BundleHist _ _ := BundleHist.add (p := 1) h1 (by decide) rfl
  have h3 : BundleHist _ _ := BundleHist.add (p := 2) h2 (by decide) rfl
  have h4 := BundleHist.remove (p := 0) h3 (by decide) rfl
  have e : (insert 2 (insert 1 (insert 0 (∅ : Finset ℕ)))).erase 0 = {1, 2} := by decide
  rw [e] at h4
  exact ⟨_, h4, rfl⟩

/-- Removing by a name that is not in use is not refused: it silently removes the last component instead. -/
theorem C19_remove_by_unused_name {b : Bundle} {S : Finset ℕ} (h : BundleHist b S) (hne : S.Nonempty) (i : ℕ)
    (hi : S.card ≤ i) (hi' : i < MAX_BUNDLE) :
    ∃ b' p, b.removeName i = .ok b' ∧ p ∈ S ∧ b.name p = S.card - 1 ∧ b'.exist p = .ok false := by
  obtain ⟨hw, rfl⟩ := h.wf
  have hc := Bundle.card_live hw
  have hpos : 0 < b.avail := by rw [← hc]; exact Finset.card_pos.2 hne
  have ha := hw.avail_le
  rw [hc] at hi ⊢
  have s1 := hw.slot_lt (b.avail - 1) (by omega)
  have s2 := hw.slot_lt i hi'
  refine ⟨{ slot := upd (upd b.slot i (b.slot (b.avail - 1))) (b.avail - 1) (b.slot i)
            name := upd (upd b.name (b.slot i) (b.avail - 1)) (b.slot (b.avail - 1)) i
            avail := b.avail - 1 }, b.slot (b.avail - 1), ?_, Bundle.slot_mem_live hw (by omega), hw.name_slot _ (by omega), ?_⟩
  · unfold Bundle.removeName
    rw [if_neg (by omega)]
    dsimp only
    rw [if_pos ⟨by omega, hi'⟩, if_pos ⟨s1, s2⟩]
  · unfold Bundle.exist
    dsimp only
    rw [if_neg (by omega), if_pos s1]
    congr 1
    refine decide_eq_false ?_
    rw [upd_same]
    omega

/-- **C20 is violated**: `Add()` tests `> MAX_BUNDLE` instead of `>= MAX_BUNDLE`, so that adding to a full container reads
outside the array instead of aborting. -/
theorem C20_add_to_full_container_refuted {b : Bundle} {S : Finset ℕ} (h : BundleHist b S) (hS : S.card = MAX_BUNDLE) :
    b.add = .ub ∧ b.add ≠ .abort := by
  obtain ⟨hw, rfl⟩ := h.wf
  have hc := Bundle.card_live hw
  have : b.add = .ub := by
    unfold Bundle.add
    rw [if_neg (by omega), if_neg (by omega)]
  exact ⟨this, by rw [this]; exact nofun⟩

/-- Every number of components up to the capacity is reached. -/
theorem BundleHist.exists_card (n : ℕ) (hn : n ≤ MAX_BUNDLE) : ∃ b S, BundleHist b S ∧ S.card = n := by
  induction n with
  | zero => exact ⟨_, _, BundleHist.init, rfl⟩
  | succ n ih =>
    obtain ⟨b, S, h, hc⟩ := ih (by omega)
    obtain ⟨p, b', e, hp, -⟩ := (C19_container_is_a_set h).2.2.2.2.2.2.1 (by omega)
    exact ⟨b', insert p S, BundleHist.add h (by omega) e, by rw [Finset.card_insert_of_notMem hp, hc]⟩

example : ∃ b S, BundleHist b S ∧ S.card = MAX_BUNDLE := BundleHist.exists_card _ le_rfl

/-- **C20, partial.** Full statement: adding to a full container aborts. Proved instead: the other overload `Add(T*)` does
abort, and in the simulation no container ever holds more than 18 of its 20 components, so the defect of `Add()` is not
triggered by it. Missing: `Add()` itself, see `C20_add_to_full_container_refuted`. -/
theorem C20_add_to_full_container_partial {Q F : Type} [Field Q] [LinearOrder Q] [IsStrictOrderedRing Q] [Field F]
    {P₀ : Params Q F} {c : Chain Q F} (hP : P₀.Wf) (hS : StartOk P₀) (h : Reach P₀ c) :
    (∀ (b : Bundle) (p : ℕ), b.avail ≥ MAX_BUNDLE → b.addPtr p = .abort) ∧
    c.d.Ver.live.card ≤ 18 ∧ c.d.G.live.card ≤ 18 ∧ c.d.W.live.card ≤ 9 := by
  obtain ⟨hw, hi⟩ := h.inv hP hS
  have hc := hi.count
  have := hc.n_le
  have := hw.lt_max
  have := hc.ver
  have := hc.g
  rw [Bundle.card_live hc.verWf, Bundle.card_live hc.gWf, Bundle.card_live hc.wWf]
  refine ⟨fun b p hb => by unfold Bundle.addPtr; rw [if_pos hb], by omega, by omega, by omega⟩

/-! ### C21 -/

/-- **C21.** Sums and differences of momenta are momenta congruent to the integer result, in both forms of the operators;
equality of momenta is congruence. -/
theorem C21_momentum_arithmetic (a b : ℤ) (ha : -MAX_K ≤ a ∧ a ≤ MAX_K) (hb : -MAX_K ≤ b ∧ b ≤ MAX_K) :
    (-MAX_K ≤ addK a b ∧ addK a b ≤ MAX_K ∧ (MOD_K) ∣ addK a b - (a + b)) ∧
    (-MAX_K ≤ subK a b ∧ subK a b ≤ MAX_K ∧ (MOD_K) ∣ subK a b - (a - b)) ∧
    (-MAX_K ≤ mulK (-1) a ∧ mulK (-1) a ≤ MAX_K ∧ mulK (-1) a = -a) ∧
    addAssignK a b = addK a b ∧ subAssignK a b = subK a b ∧
    (a = b ↔ (MOD_K) ∣ a - b) := by
  have h1 := addK_in ha hb
  have h2 := subK_in ha hb
  have e1 : addAssignK a b = addK a b := by
    have h : InK (shiftK (a + b)) := shiftK_in (by omega) (by omega)
    unfold addAssignK addK ofInt
    rw [shiftK_of_in h]
  have e2 : subAssignK a b = subK a b := by
    have h : InK (shiftK (a - b)) := shiftK_in (by omega) (by omega)
    unfold subAssignK subK ofInt
    rw [shiftK_of_in h]
  have e3 : mulK (-1) a = -a := by
    unfold mulK ofInt
    rw [shiftK_of_in (show InK (a * -1) by unfold InK; omega)]
    ring
  refine ⟨⟨h1.1, h1.2, addK_dvd a b⟩, ⟨h2.1, h2.2, subK_dvd a b⟩, ⟨by omega, by omega, e3⟩, e1, e2, ?_⟩
  exact ⟨fun h => by subst h; simp, fun h => InK.eq_of_dvd ha hb h⟩

/-- The group laws. -/
theorem C21_momentum_group (a b k : ℤ) (ha : -MAX_K ≤ a ∧ a ≤ MAX_K) (hb : -MAX_K ≤ b ∧ b ≤ MAX_K)
    (hk : -MAX_K ≤ k ∧ k ≤ MAX_K) :
    addK a b = addK b a ∧ addK (addK a b) k = addK a (addK b k) ∧ addK a 0 = a ∧ addK a (mulK (-1) a) = 0 ∧
    subK a b = addK a (mulK (-1) b) ∧ (addK a b = addK a k → b = k) := by
  have e := (C21_momentum_arithmetic a a ha ha).2.2.1
  have e' := (C21_momentum_arithmetic b b hb hb).2.2.1
  have i1 := addK_in ha hb
  have i2 := addK_in hb hk
  have z : InK 0 := by unfold InK; omega
  have n1 : InK (-a) := by unfold InK; omega
  have n2 : InK (-b) := by unfold InK; omega
  rw [e.2.2, e'.2.2]
  refine ⟨?_, ?_, ?_, ?_, ?_, ?_⟩
  · refine InK.eq_of_dvd i1 (addK_in hb ha) ?_
    have := addK_dvd a b; have := addK_dvd b a; omega
  · refine InK.eq_of_dvd (addK_in i1 hk) (addK_in ha i2) ?_
    have := addK_dvd a b; have := addK_dvd b k; have := addK_dvd (addK a b) k; have := addK_dvd a (addK b k); omega
  · refine InK.eq_of_dvd (addK_in ha z) ha ?_
    have := addK_dvd a 0; omega
  · refine InK.eq_of_dvd (addK_in ha n1) z ?_
    have := addK_dvd a (-a); omega
  · refine InK.eq_of_dvd (subK_in ha hb) (addK_in ha n2) ?_
    have := addK_dvd a (-b); have := subK_dvd a b; omega
  · intro h
    refine InK.eq_of_dvd hb hk ?_
    have := addK_dvd a b; have := addK_dvd a k; omega

/-- Integer multiples are exact up to the multiplier 3, and the single wrap fails for the multiplier 4. -/
theorem C21_momentum_multiples (n a : ℤ) (ha : -MAX_K ≤ a ∧ a ≤ MAX_K) (hn : -3 ≤ n ∧ n ≤ 3) :
    -MAX_K ≤ mulK n a ∧ mulK n a ≤ MAX_K ∧ (MOD_K) ∣ mulK n a - n * a := by
  have h : InK (mulK n a) := by
    refine shiftK_in ?_ ?_ <;> obtain ⟨h1, h2⟩ := hn <;> interval_cases n <;> omega
  refine ⟨h.1, h.2, ?_⟩
  rw [mul_comm n a]
  exact mulK_dvd n a

theorem C21_multiplier_four_leaves_range : ¬ (mulK 4 10000 ≤ MAX_K) := by decide

example : addK 9000 2000 = -9001 ∧ subK (-9000) 2000 = 9001 ∧ mulK 3 7000 = 999 := by decide

/-! ### C41 -/

/-- **C41.** The uniform real is in `[0, 1)`, and equals `n / 2^32` for exactly one word, for each `n < 2^32`. -/
theorem C41_uniform_real {Q : Type} [Field Q] [LinearOrder Q] [IsStrictOrderedRing Q] :
    (∀ w : Word, 0 ≤ urn Q w ∧ urn Q w < 1) ∧
    (∀ n : ℕ, n < 4294967296 → ∃! w : Word, urn Q w = (n : Q) / 4294967296) := by
  refine ⟨fun w => ⟨urn_nonneg w, urn_lt_one w⟩, fun n hn => ?_⟩
  have key : ∀ w : Word, urn Q w = (n : Q) / 4294967296 ↔
      (if w.val < 2147483648 then (w.val : ℤ) else (w.val : ℤ) - 4294967296) + 2147483648 = n := by
    intro w
    have e : urn Q w = (((if w.val < 2147483648 then (w.val : ℤ) else (w.val : ℤ) - 4294967296) + 2147483648 : ℤ) : Q)
        / 4294967296 := by
      unfold urn
      push_cast
      rw [add_div]
      norm_num
    rw [e, div_left_inj' (by norm_num)]
    exact_mod_cast Iff.rfl
  refine ⟨⟨(n + 2147483648) % 4294967296, Nat.mod_lt _ (by norm_num)⟩, (key _).2 ?_, fun w hw => ?_⟩
  · dsimp only
    split <;> omega
  · have h1 := (key w).1 hw
    have h2 := w.isLt
    ext
    dsimp only
    split at h1 <;> omega

/-- The uniform integer is in the interval and reaches each value. -/
theorem C41_uniform_integer (lo hi : ℤ) (h : lo ≤ hi) :
    (∀ w, ∃ k, irn w lo hi = .ok k ∧ lo ≤ k ∧ k ≤ hi) ∧
    (hi - lo < 4294967296 → ∀ k, lo ≤ k → k ≤ hi → ∃ w, irn w lo hi = .ok k) := by
  refine ⟨fun w => irn_spec w h, fun hs k h1 h2 => ?_⟩
  refine ⟨⟨(k - lo).toNat, by omega⟩, ?_⟩
  unfold irn
  rw [if_neg (by omega)]
  congr 1
  dsimp only
  rw [Int.toNat_of_nonneg (by omega), Int.emod_eq_of_lt (by omega) (by omega)]
  ring

/-- An empty interval makes the modulus zero. -/
theorem C41_empty_interval (w : Word) (lo : ℤ) : irn w lo (lo - 1) = .ub := by
  unfold irn
  rw [if_pos (by omega)]

/-- A uniform pick yields a component of the container, and each component is picked by some word. -/
theorem C41_pick {b : Bundle} {S : Finset ℕ} (h : BundleHist b S) :
    (∀ w, S.Nonempty → ∃ p ∈ S, b.pick w = .ok p) ∧ (∀ p ∈ S, ∃ w, b.pick w = .ok p) := by
  refine ⟨fun w hne => (C19_container_is_a_set h).2.2.2.2.2.2.2.2.2 w hne, fun p hp => ?_⟩
  obtain ⟨hw, rfl⟩ := h.wf
  obtain ⟨h1, h2⟩ := Bundle.mem_live.1 hp
  have ha := hw.avail_le
  obtain ⟨w, e⟩ := (C41_uniform_integer 0 ((b.avail : ℤ) - 1) (by omega)).2 (by omega) (b.name p : ℤ) (by omega) (by omega)
  refine ⟨w, ?_⟩
  unfold Bundle.pick
  rw [e]
  simp only [Res.ok_bind]
  rw [if_pos (by omega)]
  congr 1
  exact hw.slot_name p h1

end Feyn
