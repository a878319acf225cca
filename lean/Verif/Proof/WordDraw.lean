import Verif.Proof.WordAvg
import Mathlib.Algebra.Group.Fin.Basic
import Mathlib.Algebra.Group.Units.Equiv

/-!
# The draws of an update in terms of words
-/

namespace Feyn

section
variable {Q F : Type} [Field Q] [LinearOrder Q] [IsStrictOrderedRing Q] [Field F] {α β : Type}
variable {P : Params Q F} {d : Diag Q F}

/-- The word `w`, then the words `o`. -/
def consW (w : Word) (o : Words) : Words
  | 0 => w
  | i + 1 => o i

/-- The words after the first `k`. -/
def shift (k : ℕ) (o : Words) : Words := fun i => o (i + k)

/-- Average over the first `k` words; the others are `tail`. -/
def avgs (tail : Words) : ℕ → (Words → Q) → Q
  | 0, g => g tail
  | k + 1, g => avg fun w => avgs tail k fun o => g (consW w o)

theorem avgs_const (tail : Words) (k : ℕ) (c : Q) : avgs tail k (fun _ => c) = c := by
  induction k with
  | zero => rfl
  | succ k ih =>
    show (avg fun _ : Word => avgs tail k fun _ => c) = c
    rw [ih, avg_const]

/-- As `Fair`, for a choice that depends on the first `k` words, with the words after them used otherwise. -/
def FairK (k : ℕ) (f : Words → α) (A : Finset α) (B : Q) : Prop :=
  ∀ (n : ℕ) (tail : Words) (R : α → Words → Q) (m : α → Q) (B' : Q), (∀ x ∈ A, 0 ≤ m x ∧ m x ≤ 1) →
    (∀ x ∈ A, |avgs tail n (R x) - m x| ≤ B') → |avgs tail (n + k) (fun o => R (f o) (shift k o)) - mean A m| ≤ B + B'

theorem FairK.one {f : Word → α} {A : Finset α} {B : Q} (h : Fair f A B) : FairK 1 (fun o => f (o 0)) A B := by
  intro n tail R m B' hm hR
  exact h.step (R := fun x => avgs tail n (R x)) hm hR

omit [IsStrictOrderedRing Q] in
theorem FairK.zero (a : α) : FairK (Q := Q) 0 (fun _ => a) {a} 0 := by
  intro n tail R m B' _ hR
  rw [mean_singleton, zero_add]
  exact hR a (Finset.mem_singleton_self a)

theorem FairK.pair {k l : ℕ} {f : Words → α} {f' : Words → β} {A : Finset α} {A' : Finset β} {B C : Q} (h : FairK k f A B)
    (h' : FairK l f' A' C) : FairK (l + k) (fun o => (f o, f' (shift k o))) (A ×ˢ A') (B + C) := by
  intro n tail R m B' hm hR
  rw [mean_product]
  have hm' : ∀ x ∈ A, ∀ y ∈ A', 0 ≤ m (x, y) ∧ m (x, y) ≤ 1 := fun x hx y hy => hm _ (Finset.mk_mem_product hx hy)
  have := h (n + l) tail (fun x o => R (x, f' o) (shift l o)) (fun x => mean A' fun y => m (x, y)) (C + B')
    (fun x hx => mean_unit (hm' x hx))
    (fun x hx => h' n tail (fun y => R (x, y)) (fun y => m (x, y)) B' (hm' x hx) fun y hy => hR _ (Finset.mk_mem_product hx hy))
  have e : ∀ o : Words, shift l (shift k o) = shift (l + k) o := fun o => by
    funext i
    simp only [shift, Nat.add_assoc]
  simp only [e] at this
  rw [Nat.add_assoc] at this
  rwa [add_assoc]

omit [IsStrictOrderedRing Q] in
theorem FairK.map [DecidableEq β] {k : ℕ} {f : Words → α} {A : Finset α} {B : Q} (h : FairK k f A B) (c : α → β)
    (hi : Function.Injective c) : FairK k (fun o => c (f o)) (A.image c) B := by
  intro n tail R m B' hm hR
  rw [mean_image _ _ hi.injOn]
  exact h n tail (fun x => R (c x)) (fun x => m (c x)) B' (fun x hx => hm _ (Finset.mem_image_of_mem _ hx))
    fun x hx => hR _ (Finset.mem_image_of_mem _ hx)

/-! ## The random number -/

theorem urn_shift (w : Word) : urn Q w = (((w + 2147483648 : Word).val : ℕ) : Q) / 4294967296 := by
  have hw := w.isLt
  have e : ((w + 2147483648 : Word).val : ℤ) = (if w.val < 2147483648 then (w.val : ℤ) else (w.val : ℤ) - 4294967296) + 2147483648 := by
    rw [Fin.val_add]
    have : ((2147483648 : Word).val) = 2147483648 := rfl
    rw [this]
    split_ifs <;> omega
  have e2 : (((w + 2147483648 : Word).val : ℕ) : Q) = (((w + 2147483648 : Word).val : ℤ) : Q) := by push_cast; rfl
  rw [e2, e]
  unfold urn
  rw [Int.cast_add, add_div]
  norm_num

theorem avg_urn (g : Q → Q) : avg (fun w : Word => g (urn Q w)) = avg fun w : Word => g ((w.val : Q) / 4294967296) := by
  rw [← avg_equiv (Equiv.addRight (2147483648 : Word)) fun w : Word => g ((w.val : Q) / 4294967296)]
  simp only [urn_shift, Equiv.coe_addRight]

/-- The share of the words for which the random number is below `a`. -/
theorem avg_below (a : Q) (h0 : 0 ≤ a) (h1 : a ≤ 1) : 0 ≤ avg (fun w : Word => if urn Q w < a then (1 : Q) else 0) - a ∧
    avg (fun w : Word => if urn Q w < a then (1 : Q) else 0) - a < 1 / (4294967296 : ℕ) := by
  rw [avg_urn (Q := Q) fun u => if u < a then (1 : Q) else 0, avg_range fun i : ℕ => if (i : Q) / 4294967296 < a then (1 : Q) else 0]
  have h := count_below (N := 4294967296) a h0 h1
  unfold mean
  rw [Finset.sum_boole, Finset.card_range]
  exact h

theorem Fair.tau (hP : P.Wf) : Fair (fun w : Word => pickTau P w) (timeGrid P) (0 : Q) := by
  constructor
  · intro w
    rw [mem_timeGrid]
    exact ⟨_, (w + 2147483648 : Word).isLt, by rw [← urn_shift]; rfl⟩
  · intro g _
    have e := avg_urn (Q := Q) fun u => g (u * P.beta)
    have e1 : avg (fun w : Word => g (pickTau P w)) = avg fun w : Word => g (urn Q w * P.beta) := rfl
    rw [e1, e, avg_range fun i : ℕ => g ((i : Q) / 4294967296 * P.beta)]
    unfold timeGrid
    rw [mean_image, sub_self, abs_zero]
    intro a _ b _ h
    have hb := hP.beta_pos.ne'
    have h' : (a : Q) / 4294967296 * P.beta = (b : Q) / 4294967296 * P.beta := h
    have h2 := mul_right_cancel₀ hb h'
    rw [div_left_inj' (by norm_num)] at h2
    exact_mod_cast h2

/-! ## The choices -/

theorem irn_eq (w : Word) (n : ℕ) (hn : 0 < n) (lo hi : ℤ) (h : hi - lo + 1 = n) : irn w lo hi = .ok (((w.val % n : ℕ) : ℤ) + lo) := by
  unfold irn
  rw [h, if_neg (by omega)]
  push_cast
  rfl

/-- The momentum drawn. -/
def kOf (w : Word) : ℤ := ((w.val % 20001 : ℕ) : ℤ) + -10000

/-- The direction drawn; also the spin. -/
def dirOf (w : Word) : Bool := decide (w.val % 2 ≠ 0)

/-- The spin of the worm drawn. -/
def dsOf (w : Word) : ℤ := ((w.val % 2 : ℕ) : ℤ) * 2 - 1

/-- The site drawn. -/
def siteOf (P : Params Q F) (x y s : Word) : Site := ⟨((s.val % P.nsub : ℕ) : ℤ), ((x.val % P.lx : ℕ) : ℤ), ((y.val % P.ly : ℕ) : ℤ)⟩

theorem pickK_eq (w : Word) : pickK w = .ok (kOf w) := by
  have hw : w.val % 20001 < 20001 := Nat.mod_lt _ (by norm_num)
  unfold pickK
  rw [irn_eq w 20001 (by norm_num) (-MAX_K) MAX_K (by norm_num), Res.ok_bind, ofInt, shiftK_of_in]
  · rfl
  · constructor <;> omega

theorem pickDSpin_eq (w : Word) : pickDSpin w = .ok (dsOf w) := by
  unfold pickDSpin
  rw [irn_eq w 2 (by norm_num) 0 1 (by norm_num), Res.ok_bind, add_zero]
  rfl

theorem pickDir_eq (w : Word) : pickDir w = .ok (dirOf w) := by
  unfold pickDir dirOf
  rw [irn_eq w 2 (by norm_num) 0 1 (by norm_num), Res.ok_bind, add_zero]
  have := Nat.mod_lt w.val (show 2 > 0 by norm_num)
  by_cases h : w.val % 2 = 0
  · simp [h]
  · have : w.val % 2 = 1 := by omega
    rw [this]
    rfl

theorem pickSpin_eq (w : Word) : pickSpin w = .ok (dirOf w) := pickDir_eq w

omit [IsStrictOrderedRing Q] in
theorem pickSite_eq (hP : P.Wf) (x y s : Word) : pickSite P x y s = .ok (siteOf P x y s) := by
  unfold pickSite
  rw [irn_eq x P.lx hP.lx_pos 0 _ (by ring), irn_eq y P.ly hP.ly_pos 0 _ (by ring), irn_eq s P.nsub hP.nsub_pos 0 _ (by ring)]
  simp [siteOf]

theorem pickB_eq {b : Bundle} (h : b.Wf) (hp : 0 < b.avail) (w : Word) : b.pick w = .ok (b.slot (w.val % b.avail)) := by
  unfold Bundle.pick
  rw [irn_eq w b.avail hp 0 _ (by ring), Res.ok_bind, add_zero, Int.toNat_natCast, if_pos]
  exact lt_of_lt_of_le (Nat.mod_lt _ hp) h.avail_le

/-- One part in 2^32. -/
abbrev tick : Q := 1 / (4294967296 : ℕ)

theorem Fair.bundle {b : Bundle} (h : b.Wf) (hp : 0 < b.avail) :
    Fair (fun w : Word => b.slot (w.val % b.avail)) b.live ((b.avail : Q) / (4294967296 : ℕ)) := by
  rw [Bundle.live_eq_image h]
  exact Fair.mod b.avail hp b.slot fun i hi j hj e =>
    Bundle.slot_inj h (Finset.mem_range.1 (Finset.mem_coe.1 hi)) (Finset.mem_range.1 (Finset.mem_coe.1 hj)) e

theorem Fair.k : Fair (fun w : Word => kOf w) allK ((20001 : ℕ) / (4294967296 : ℕ) : Q) := by
  have h := Fair.mod (Q := Q) (N := 4294967296) 20001 (by norm_num) (fun i : ℕ => (i : ℤ) + -10000) (fun a _ b _ e => by simpa using e)
  have e : (Finset.range 20001).image (fun i : ℕ => (i : ℤ) + -10000) = allK := by
    ext k
    rw [mem_allK, Finset.mem_image]
    constructor
    · rintro ⟨i, hi, rfl⟩
      have := Finset.mem_range.1 hi
      constructor <;> omega
    · rintro ⟨h1, h2⟩
      exact ⟨(k + 10000).toNat, Finset.mem_range.2 (by omega), by omega⟩
  rw [e] at h
  exact h

theorem Fair.dir : Fair (fun w : Word => dirOf w) both ((2 : ℕ) / (4294967296 : ℕ) : Q) := by
  have h := Fair.mod (Q := Q) (N := 4294967296) 2 (by norm_num) (fun i : ℕ => decide (i ≠ 0)) (by
    intro a ha b hb e
    have h1 := Finset.mem_range.1 (Finset.mem_coe.1 ha)
    have h2 := Finset.mem_range.1 (Finset.mem_coe.1 hb)
    simp only [ne_eq, decide_not, decide_eq_decide, Bool.not_eq_eq_eq_not, Bool.not_not] at e
    omega)
  have e : (Finset.range 2).image (fun i : ℕ => decide (i ≠ 0)) = both := by decide
  rw [e] at h
  exact h

theorem Fair.ds : Fair (fun w : Word => dsOf w) {1, -1} ((2 : ℕ) / (4294967296 : ℕ) : Q) := by
  have h := Fair.mod (Q := Q) (N := 4294967296) 2 (by norm_num) (fun i : ℕ => (i : ℤ) * 2 - 1) (by
    intro a _ b _ e
    simp only at e
    omega)
  have e : (Finset.range 2).image (fun i : ℕ => (i : ℤ) * 2 - 1) = {1, -1} := by decide
  rw [e] at h
  exact h

theorem Fair.coord (n : ℕ) (hn : 0 < n) : Fair (fun w : Word => w.val % n) (Finset.range n) ((n : Q) / (4294967296 : ℕ)) := by
  have h := Fair.mod (Q := Q) (N := 4294967296) n hn id (fun a _ b _ e => e)
  rwa [Finset.image_id] at h

theorem FairK.site (hP : P.Wf) : FairK 3 (fun o => siteOf P (o 0) (o 1) (o 2)) (allSites P)
    ((P.lx : Q) / (4294967296 : ℕ) + ((P.ly : Q) / (4294967296 : ℕ) + (P.nsub : Q) / (4294967296 : ℕ))) := by
  have h := (((FairK.one (Fair.coord (Q := Q) P.lx hP.lx_pos)).pair ((FairK.one (Fair.coord P.ly hP.ly_pos)).pair
    (FairK.one (Fair.coord P.nsub hP.nsub_pos)))).map (fun x => (⟨(x.2.2 : ℤ), (x.1 : ℤ), (x.2.1 : ℤ)⟩ : Site)) (by
      rintro ⟨a, b, c⟩ ⟨a', b', c'⟩ h
      simp only [Site.mk.injEq, Nat.cast_inj] at h
      simp [h]))
  have e : (Finset.range P.lx ×ˢ Finset.range P.ly ×ˢ Finset.range P.nsub).image (fun x => (⟨(x.2.2 : ℤ), (x.1 : ℤ), (x.2.1 : ℤ)⟩ : Site))
      = allSites P := by
    ext r
    unfold allSites
    simp only [Finset.mem_image, Finset.mem_product, Finset.mem_range, Prod.exists]
    constructor
    · rintro ⟨a, b, c, ⟨h1, h2, h3⟩, rfl⟩
      exact ⟨c, a, b, ⟨h3, h1, h2⟩, rfl⟩
    · rintro ⟨a, b, c, ⟨h1, h2, h3⟩, rfl⟩
      exact ⟨b, c, a, ⟨h2, h3, h1⟩, rfl⟩
  rw [e] at h
  exact h

end
end Feyn
