import Verif.Proof.StatMain
import Mathlib.Data.Int.CardIntervalMod
import Mathlib.Algebra.Order.BigOperators.Ring.Finset

/-!
# Averages over the words of the generator
-/

namespace Feyn

section
variable {Q : Type} [Field Q] [LinearOrder Q] [IsStrictOrderedRing Q] {α β : Type} {N : ℕ}

/-- Average over all words. -/
def avg (f : Fin N → Q) : Q := (∑ w, f w) / (N : Q)

/-- Average over the elements of a set. -/
def mean (A : Finset α) (f : α → Q) : Q := (∑ x ∈ A, f x) / (A.card : Q)

theorem avg_le [NeZero N] {f : Fin N → Q} {B : Q} (h : ∀ w, f w ≤ B) : avg f ≤ B := by
  unfold avg
  have hN : (0 : Q) < N := Nat.cast_pos.2 (NeZero.pos N)
  rw [div_le_iff₀ hN]
  have := Finset.sum_le_card_nsmul Finset.univ f B fun w _ => h w
  rw [Finset.card_univ, Fintype.card_fin, nsmul_eq_mul, mul_comm] at this
  exact this

omit [LinearOrder Q] [IsStrictOrderedRing Q] in
theorem avg_sub (f g : Fin N → Q) : avg f - avg g = avg fun w => f w - g w := by
  unfold avg
  rw [Finset.sum_sub_distrib, sub_div]

omit [LinearOrder Q] [IsStrictOrderedRing Q] in
theorem avg_neg (f : Fin N → Q) : avg (fun w => -f w) = -avg f := by
  unfold avg
  rw [Finset.sum_neg_distrib, neg_div]

omit [LinearOrder Q] [IsStrictOrderedRing Q] in
theorem avg_mul (f : Fin N → Q) (c : Q) : avg (fun w => f w * c) = avg f * c := by
  unfold avg
  rw [← Finset.sum_mul, div_mul_eq_mul_div]

omit [LinearOrder Q] [IsStrictOrderedRing Q] in
theorem avg_add (f g : Fin N → Q) : (avg fun w => f w + g w) = avg f + avg g := by
  unfold avg
  rw [Finset.sum_add_distrib, add_div]

theorem avg_close [NeZero N] {f g : Fin N → Q} {B : Q} (h : ∀ w, |f w - g w| ≤ B) : |avg f - avg g| ≤ B := by
  rw [abs_le, avg_sub]
  constructor
  · have := avg_le (f := fun w => -(f w - g w)) (B := B) fun w => by have := (abs_le.1 (h w)).1; linarith
    rw [avg_neg] at this
    linarith
  · exact avg_le fun w => (abs_le.1 (h w)).2

theorem avg_const [NeZero N] (c : Q) : avg (fun _ : Fin N => c) = c := by
  unfold avg
  have hN : (N : Q) ≠ 0 := Nat.cast_ne_zero.2 (NeZero.ne N)
  rw [Finset.sum_const, Finset.card_univ, Fintype.card_fin, nsmul_eq_mul, mul_div_cancel_left₀ _ hN]

theorem avg_nonneg [NeZero N] {f : Fin N → Q} (h : ∀ w, 0 ≤ f w) : 0 ≤ avg f := by
  unfold avg
  exact div_nonneg (Finset.sum_nonneg fun w _ => h w) (Nat.cast_nonneg N)

omit [LinearOrder Q] [IsStrictOrderedRing Q] in
theorem avg_equiv (e : Fin N ≃ Fin N) (f : Fin N → Q) : (avg fun w => f (e w)) = avg f := by
  unfold avg
  rw [Equiv.sum_comp e f]

omit [LinearOrder Q] [IsStrictOrderedRing Q] in
theorem avg_range (f : ℕ → Q) : (avg fun w : Fin N => f w.val) = mean (Finset.range N) f := by
  unfold avg mean
  rw [Fin.sum_univ_eq_sum_range f, Finset.card_range]

omit [LinearOrder Q] [IsStrictOrderedRing Q] in
theorem avg_sum (A : Finset α) (f : α → Fin N → Q) : (avg fun w => ∑ x ∈ A, f x w) = ∑ x ∈ A, avg (f x) := by
  unfold avg
  rw [Finset.sum_comm, Finset.sum_div]

theorem mean_unit {A : Finset α} {f : α → Q} (h : ∀ x ∈ A, 0 ≤ f x ∧ f x ≤ 1) : 0 ≤ mean A f ∧ mean A f ≤ 1 := by
  unfold mean
  constructor
  · exact div_nonneg (Finset.sum_nonneg fun x hx => (h x hx).1) (Nat.cast_nonneg _)
  · refine div_le_one_of_le₀ ?_ (Nat.cast_nonneg _)
    have := Finset.sum_le_card_nsmul A f 1 fun x hx => (h x hx).2
    simpa using this

omit [LinearOrder Q] [IsStrictOrderedRing Q] in
theorem mean_image [DecidableEq β] (A : Finset α) (h : α → β) (hi : Set.InjOn h A) (f : β → Q) : mean (A.image h) f = mean A fun x => f (h x) := by
  unfold mean
  rw [Finset.sum_image hi, Finset.card_image_of_injOn hi]

omit [LinearOrder Q] [IsStrictOrderedRing Q] in
theorem mean_product (A : Finset α) (B : Finset β) (f : α × β → Q) : mean (A ×ˢ B) f = mean A fun a => mean B fun b => f (a, b) := by
  unfold mean
  rw [Finset.sum_product, Finset.card_product, Nat.cast_mul, ← Finset.sum_div, div_div, mul_comm (B.card : Q)]

omit [LinearOrder Q] [IsStrictOrderedRing Q] in
theorem mean_comm (A : Finset α) (B : Finset β) (f : α → β → Q) : (mean A fun a => mean B fun b => f a b) = mean B fun b => mean A fun a => f a b := by
  unfold mean
  rw [← Finset.sum_div, ← Finset.sum_div, Finset.sum_comm, div_right_comm]

omit [LinearOrder Q] [IsStrictOrderedRing Q] in
theorem mean_singleton (a : α) (f : α → Q) : mean {a} f = f a := by
  unfold mean
  simp

/-- The words choose from `A`, almost evenly: averages of functions with values from 0 to 1 differ by at most `B`. -/
def Fair (f : Fin N → α) (A : Finset α) (B : Q) : Prop :=
  (∀ w, f w ∈ A) ∧ ∀ g : α → Q, (∀ x ∈ A, 0 ≤ g x ∧ g x ≤ 1) → |avg (fun w => g (f w)) - mean A g| ≤ B

/-- One draw more. -/
theorem Fair.step [NeZero N] {f : Fin N → α} {A : Finset α} {B B' : Q} (h : Fair f A B) {R m : α → Q} (hm : ∀ x ∈ A, 0 ≤ m x ∧ m x ≤ 1)
    (hR : ∀ x ∈ A, |R x - m x| ≤ B') : |avg (fun w => R (f w)) - mean A m| ≤ B + B' := by
  have h1 := h.2 m hm
  have h2 : |avg (fun w => R (f w)) - avg fun w => m (f w)| ≤ B' := avg_close fun w => hR _ (h.1 w)
  rw [abs_le] at h1 h2 ⊢
  constructor <;> linarith [h1.1, h1.2, h2.1, h2.2]

/-- It is sufficient to look at each element. -/
theorem Fair.of_share [DecidableEq α] [NeZero N] {f : Fin N → α} {A : Finset α} {ε : Q} (hA : ∀ w, f w ∈ A)
    (h : ∀ x ∈ A, |avg (fun w => if f w = x then (1 : Q) else 0) - 1 / (A.card : Q)| ≤ ε) : Fair f A (A.card * ε) := by
  refine ⟨hA, fun g hg => ?_⟩
  have e1 : avg (fun w => g (f w)) = ∑ x ∈ A, avg (fun w => if f w = x then (1 : Q) else 0) * g x := by
    have : (fun w => g (f w)) = fun w => ∑ x ∈ A, (if f w = x then (1 : Q) else 0) * g x := by
      funext w
      rw [Finset.sum_eq_single_of_mem (f w) (hA w)]
      · simp
      · intro x _ hx
        simp [Ne.symm hx]
    rw [this, avg_sum]
    exact Finset.sum_congr rfl fun x _ => avg_mul _ _
  have e2 : mean A g = ∑ x ∈ A, 1 / (A.card : Q) * g x := by
    unfold mean
    rw [← Finset.mul_sum, one_div, inv_mul_eq_div]
  rw [e1, e2, ← Finset.sum_sub_distrib]
  refine le_trans (Finset.abs_sum_le_sum_abs _ _) ?_
  rw [← nsmul_eq_mul]
  refine Finset.sum_le_card_nsmul _ _ _ fun x hx => ?_
  rw [← sub_mul, abs_mul, abs_of_nonneg (hg x hx).1]
  exact le_trans (mul_le_of_le_one_right (abs_nonneg _) (hg x hx).2) (h x hx)

theorem card_mod (n r : ℕ) (hn : 0 < n) (hr : r < n) :
    (Finset.univ.filter fun w : Fin N => w.val % n = r).card = N / n + if r < N % n then 1 else 0 := by
  have h := Nat.count_modEq_card (r := n) N hn r
  rw [Nat.mod_eq_of_lt hr] at h
  rw [← h, Nat.count_eq_card_filter_range]
  refine Finset.card_bij (fun w _ => w.val) ?_ ?_ ?_
  · intro w hw
    rw [Finset.mem_filter] at hw ⊢
    exact ⟨Finset.mem_range.2 w.isLt, by unfold Nat.ModEq; rw [hw.2, Nat.mod_eq_of_lt hr]⟩
  · intro a _ b _ hab
    exact Fin.ext hab
  · intro b hb
    rw [Finset.mem_filter] at hb
    refine ⟨⟨b, Finset.mem_range.1 hb.1⟩, ?_, rfl⟩
    rw [Finset.mem_filter]
    refine ⟨Finset.mem_univ _, ?_⟩
    have := hb.2
    unfold Nat.ModEq at this
    rw [Nat.mod_eq_of_lt hr] at this
    exact this

omit [LinearOrder Q] [IsStrictOrderedRing Q] in
theorem avg_ite (p : Fin N → Prop) [DecidablePred p] : avg (fun w => if p w then (1 : Q) else 0) = ((Finset.univ.filter p).card : Q) / (N : Q) := by
  unfold avg
  rw [Finset.sum_boole]

/-- The remainder of a word. -/
theorem Fair.mod [DecidableEq α] [NeZero N] (n : ℕ) (hn : 0 < n) (h : ℕ → α) (hi : Set.InjOn h (Finset.range n)) :
    Fair (Q := Q) (fun w : Fin N => h (w.val % n)) ((Finset.range n).image h) ((n : Q) / N) := by
  have hN : (0 : Q) < N := Nat.cast_pos.2 (NeZero.pos N)
  have hn' : (0 : Q) < n := Nat.cast_pos.2 hn
  have hc : ((Finset.range n).image h).card = n := by rw [Finset.card_image_of_injOn hi, Finset.card_range]
  have key := Fair.of_share (Q := Q) (f := fun w : Fin N => h (w.val % n)) (A := (Finset.range n).image h) (ε := 1 / N)
    (fun w => Finset.mem_image_of_mem _ (Finset.mem_range.2 (Nat.mod_lt _ hn))) (by
      intro x hx
      obtain ⟨r, hr, rfl⟩ := Finset.mem_image.1 hx
      have hr' := Finset.mem_range.1 hr
      have e : ∀ w : Fin N, (h (w.val % n) = h r) ↔ w.val % n = r := fun w =>
        ⟨fun q => hi (Finset.mem_coe.2 (Finset.mem_range.2 (Nat.mod_lt _ hn))) (Finset.mem_coe.2 hr) q, fun q => by rw [q]⟩
      simp only [e]
      rw [avg_ite, card_mod n r hn hr', hc]
      have hdm : (N : Q) = n * (N / n : ℕ) + (N % n : ℕ) := by exact_mod_cast (Nat.div_add_mod N n).symm
      have hlt : ((N % n : ℕ) : Q) < n := by exact_mod_cast Nat.mod_lt N hn
      have hge : (0 : Q) ≤ ((N % n : ℕ) : Q) := Nat.cast_nonneg _
      have e2 : ∀ x : Q, x / N - 1 / n = (x * n - N) / (n * N) := fun x => by field_simp
      rw [e2, abs_div, abs_of_pos (mul_pos hn' hN), div_le_div_iff₀ (mul_pos hn' hN) hN, one_mul]
      refine mul_le_mul_of_nonneg_right ?_ hN.le
      rw [abs_le]
      split_ifs with hs
      · push_cast
        constructor <;> nlinarith
      · push_cast
        constructor <;> nlinarith)
  rw [hc] at key
  rwa [mul_one_div] at key

/-- A random number below a bound. -/
theorem prefix_exists (p : ℕ → Prop) (hp : ∀ i j, i ≤ j → p j → p i) (n : ℕ) : ∃ k ≤ n, ∀ i < n, p i ↔ i < k := by
  induction n with
  | zero => exact ⟨0, le_refl _, fun i hi => absurd hi (Nat.not_lt_zero i)⟩
  | succ n ih =>
    obtain ⟨k, hk, h⟩ := ih
    by_cases hn : p n
    · exact ⟨n + 1, le_refl _, fun i hi => ⟨fun _ => hi, fun _ => hp i n (by omega) hn⟩⟩
    · refine ⟨k, by omega, fun i hi => ?_⟩
      rcases Nat.lt_succ_iff_lt_or_eq.1 hi with h1 | h1
      · exact h i h1
      · subst h1
        exact ⟨fun q => absurd q hn, fun q => absurd q (by omega)⟩

theorem count_below [NeZero N] (a : Q) (h0 : 0 ≤ a) (h1 : a ≤ 1) :
    0 ≤ (((Finset.range N).filter fun i : ℕ => (i : Q) / N < a).card : Q) / N - a ∧
      (((Finset.range N).filter fun i : ℕ => (i : Q) / N < a).card : Q) / N - a < 1 / N := by
  have hN : (0 : Q) < N := Nat.cast_pos.2 (NeZero.pos N)
  obtain ⟨k, hk, h⟩ := prefix_exists (fun i => (i : Q) / N < a) (fun i j hij hj =>
    lt_of_le_of_lt (div_le_div_of_nonneg_right (Nat.cast_le.2 hij) hN.le) hj) N
  have e : (Finset.range N).filter (fun i : ℕ => (i : Q) / N < a) = Finset.range k := by
    ext i
    rw [Finset.mem_filter, Finset.mem_range, Finset.mem_range]
    exact ⟨fun q => (h i q.1).1 q.2, fun q => ⟨lt_of_lt_of_le q hk, (h i (lt_of_lt_of_le q hk)).2 q⟩⟩
  rw [e, Finset.card_range]
  constructor
  · rcases Nat.lt_or_eq_of_le hk with hk | hk
    · have := mt (h k hk).1 (lt_irrefl k)
      linarith [not_lt.1 this]
    · rw [hk, div_self hN.ne']
      linarith
  · rcases Nat.eq_zero_or_pos k with rfl | hp
    · have : (0 : Q) < 1 / N := by positivity
      simp only [Nat.cast_zero, zero_div]
      linarith
    · have := (h (k - 1) (by omega)).2 (by omega)
      rw [Nat.cast_sub hp, Nat.cast_one, sub_div] at this
      linarith

end
end Feyn
