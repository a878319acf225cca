import Verif.Spec.Rng
import Mathlib.Data.Fintype.Pigeonhole

/-! # The engine computes the sequence of the standard -/

namespace Feyn

/-! ## 32 and 64 bits -/

/-- A word of 32 bits as a word of 64 bits. -/
abbrev wide (a : BitVec 32) : U64 := a.setWidth 64

theorem wide_headTail (a b : BitVec 32) :
    ((wide a) &&& (BitVec.allOnes 64 <<< 31)) ||| ((wide b) &&& ~~~(BitVec.allOnes 64 <<< 31)) = wide (headTail a b) := by
  ext i hi
  simp only [headTail, BitVec.getElem_or, BitVec.getElem_and, BitVec.getElem_setWidth, BitVec.getElem_not, BitVec.getElem_shiftLeft, BitVec.getLsbD_append,
    BitVec.getLsbD_extractLsb', BitVec.getElem_allOnes]
  by_cases h : i < 31
  · simp [h]
  · by_cases h2 : i = 31
    · subst h2; simp
    · have h3 : 32 ≤ i := by omega
      rw [BitVec.getLsbD_of_ge a i h3, BitVec.getLsbD_of_ge a (31 + (i - 31)) (by omega)]
      simp [h]

theorem wide_xor (a b : BitVec 32) : wide a ^^^ wide b = wide (a ^^^ b) := by
  ext i hi
  simp only [BitVec.getElem_xor, BitVec.getElem_setWidth, BitVec.getLsbD_xor]

theorem wide_shiftRight (a : BitVec 32) (k : ℕ) : wide a >>> k = wide (a >>> k) := by
  ext i hi
  simp only [BitVec.getElem_setWidth, BitVec.getLsbD_ushiftRight, BitVec.getElem_ushiftRight, BitVec.getLsbD_setWidth]
  by_cases h : k + i < 64
  · simp [h]
  · rw [BitVec.getLsbD_of_ge a (k + i) (by omega)]; simp

theorem wide_mask (a m : BitVec 32) : wide a &&& wide m = wide (a &&& m) := by
  ext i hi
  simp only [BitVec.getElem_and, BitVec.getElem_setWidth, BitVec.getLsbD_and]

theorem wide_shiftLeft (a m : BitVec 32) (k : ℕ) : (wide a <<< k) &&& wide m = wide ((a <<< k) &&& m) := by
  ext i hi
  simp only [BitVec.getElem_and, BitVec.getElem_setWidth, BitVec.getLsbD_and, BitVec.getElem_shiftLeft, BitVec.getLsbD_shiftLeft]
  by_cases h : i < 32
  · by_cases h2 : i < k <;> simp [h, h2]
  · rw [BitVec.getLsbD_of_ge m i (by omega)]; simp

theorem wide_twist (a b : BitVec 32) : mtTwist (wide a) (wide b) = wide (twistBy (headTail a b)) := by
  rw [mtTwist]
  simp only [wide_headTail]
  rw [twistBy, ← wide_xor, wide_shiftRight]
  congr 1
  have : (wide (headTail a b) &&& 1 = 1) ↔ (headTail a b).getLsbD 0 = true := by
    rw [show (1 : U64) = wide 1 from rfl, wide_mask]
    constructor
    · intro h
      have := congrArg (fun v : U64 => v.getLsbD 0) h
      simpa using this
    · intro h
      congr 1
      ext i hi
      rcases i with _ | i
      · simpa using h
      · simp
  by_cases h : (headTail a b).getLsbD 0 = true
  · rw [if_pos (this.2 h), if_pos h]; rfl
  · rw [if_neg (fun hh => h (this.1 hh)), if_neg h]; rfl

theorem wide_temper (z : BitVec 32) : mtTemper (wide z) = wide (tempered z) := by
  simp only [mtTemper, tempered]
  rw [show (0xffffffff : U64) = wide 0xffffffff from rfl, show (0x9d2c5680 : U64) = wide 0x9d2c5680 from rfl,
    show (0xefc60000 : U64) = wide 0xefc60000 from rfl, wide_shiftRight, wide_mask, wide_xor, wide_shiftLeft, wide_xor, wide_shiftLeft, wide_xor,
    wide_shiftRight, wide_xor, show (0xffffffff : BitVec 32) = BitVec.allOnes 32 from rfl, BitVec.and_allOnes]

theorem wide_seed_zero (s : ℤ) : BitVec.ofInt 64 s % 4294967296 = wide (BitVec.ofInt 32 s) := by
  apply BitVec.eq_of_toNat_eq
  rw [BitVec.toNat_umod, BitVec.toNat_ofInt, BitVec.toNat_setWidth, BitVec.toNat_ofInt, show (4294967296 : U64).toNat = 4294967296 from rfl]
  omega

theorem wide_step (y : BitVec 32) (i : ℕ) (h : i < 624) :
    (wide y * 1812433253 + BitVec.ofNat 64 (i % 624)) % 4294967296 = wide (1812433253 * y + BitVec.ofNat 32 i) := by
  apply BitVec.eq_of_toNat_eq
  have := y.isLt
  rw [BitVec.toNat_umod, BitVec.toNat_add, BitVec.toNat_mul, BitVec.toNat_setWidth, BitVec.toNat_setWidth, BitVec.toNat_add, BitVec.toNat_mul, Nat.mod_eq_of_lt h,
    BitVec.toNat_ofNat, BitVec.toNat_ofNat, show (4294967296 : U64).toNat = 4294967296 from rfl,
    show (1812433253 : U64).toNat = 1812433253 from rfl, show (1812433253 : BitVec 32).toNat = 1812433253 from rfl]
  omega

theorem wide_seed (s : ℤ) (i : ℕ) (h : i < 624) : mtSeedWord (BitVec.ofInt 64 s) i = wide (twisterStart (BitVec.ofInt 32 s) i) := by
  induction i with
  | zero => rw [mtSeedWord, twisterStart, wide_seed_zero]
  | succ i ih =>
    rw [mtSeedWord, twisterStart, ih (by omega)]
    rw [wide_shiftRight, wide_xor, wide_step _ _ h]

theorem wide_toNat (a : BitVec 32) : (wide a).toNat = a.toNat := by
  have := a.isLt
  rw [BitVec.toNat_setWidth, Nat.mod_eq_of_lt (by omega)]

theorem wide_inj {a b : BitVec 32} (h : wide a = wide b) : a = b := by
  apply BitVec.eq_of_toNat_eq
  rw [← wide_toNat, ← wide_toNat, h]

/-! ## The array that is overwritten -/

theorem twister_small (x : ℕ → BitVec 32) {i : ℕ} (h : i < 624) : twister x i = x i := by
  rw [twister, if_pos h]

theorem twister_step (x : ℕ → BitVec 32) (i : ℕ) :
    twister x (i + 624) = twister x (i + 397) ^^^ twistBy (headTail (twister x i) (twister x (i + 1))) := by
  rw [twister, if_neg (by omega), show i + 624 - 227 = i + 397 by omega, show i + 624 - 624 = i by omega, show i + 624 - 623 = i + 1 by omega]

/-- The array after `k` assignments of the block `b`. -/
def mixed (x : ℕ → BitVec 32) (b k : ℕ) (i : Fin 624) : U64 := wide (twister x (if i.val < k then b + i + 624 else b + i))

theorem ix_val {k : ℕ} (h : k < 624) : (ix k).val = k := by
  simp [ix, Fin.ofNat, Nat.mod_eq_of_lt h]

theorem mtAssign_mixed (x : ℕ → BitVec 32) (b : ℕ) {k k1 k2 : ℕ} (h : k < 624) (h1 : mixed x b k (ix k1) = wide (twister x (b + k + 397)))
    (h2 : mixed x b k (ix k2) = wide (twister x (b + k + 1))) : mtAssign (mixed x b k) k k1 k2 = mixed x b (k + 1) := by
  have hk : mixed x b k (ix k) = wide (twister x (b + k)) := by
    rw [mixed, ix_val h, if_neg (by omega)]
  rw [mtAssign, h1, h2, hk, wide_twist, wide_xor, ← twister_step]
  funext i
  by_cases hi : i = ix k
  · subst hi
    rw [Function.update_self, mixed, ix_val h, if_pos (by omega)]
  · rw [Function.update_of_ne hi, mixed, mixed]
    have : i.val ≠ k := fun e => hi (Fin.ext (by rw [e, ix_val h]))
    by_cases h3 : i.val < k
    · rw [if_pos h3, if_pos (by omega)]
    · rw [if_neg h3, if_neg (by omega)]

theorem foldl_range' {α : Type} (f : α → ℕ → α) (M : ℕ → α) (a n : ℕ) (h : ∀ k, a ≤ k → k < a + n → f (M k) k = M (k + 1)) :
    (List.range' a n).foldl f (M a) = M (a + n) := by
  induction n generalizing a with
  | zero => simp
  | succ n ih =>
    rw [List.range'_succ, List.foldl_cons, h a (le_refl a) (by omega), ih (a + 1) fun k h1 h2 => h k (by omega) (by omega)]
    congr 1; omega

theorem mtGen_mixed (x : ℕ → BitVec 32) (b : ℕ) : mtGen (mixed x b 0) = mixed x (b + 624) 0 := by
  have e1 : (List.range 227).foldl (fun x k => mtAssign x k (k + 397) (k + 1)) (mixed x b 0) = mixed x b 227 := by
    rw [List.range_eq_range']
    refine foldl_range' _ (mixed x b) 0 227 fun k _ hk => mtAssign_mixed x b (by omega) ?_ ?_
    · rw [mixed, ix_val (by omega), if_neg (by omega), Nat.add_assoc]
    · rw [mixed, ix_val (by omega), if_neg (by omega), Nat.add_assoc]
  have e2 : (List.range' 227 396).foldl (fun x k => mtAssign x k (k - 227) (k + 1)) (mixed x b 227) = mixed x b 623 := by
    refine foldl_range' _ (mixed x b) 227 396 fun k h1 hk => mtAssign_mixed x b (by omega) ?_ ?_
    · rw [mixed, ix_val (by omega), if_pos (by omega), show b + (k - 227) + 624 = b + k + 397 by omega]
    · rw [mixed, ix_val (by omega), if_neg (by omega), Nat.add_assoc]
  rw [mtGen]
  simp only [e1, e2]
  rw [mtAssign_mixed x b (by omega)]
  · funext i
    rw [mixed, mixed, if_pos i.isLt, if_neg (by omega)]
    rw [Nat.add_right_comm]
  · rw [mixed, ix_val (by omega), if_pos (by omega)]
  · rw [mixed, ix_val (by omega), if_pos (by omega)]

/-! ## The words -/

/-- The generator stands at the place `c` of the sequence. -/
def StandsAt (x : ℕ → BitVec 32) (c : ℕ) (g : Mt) : Prop :=
  ∃ b, g.x = mixed x b 0 ∧ g.p.toNat ≤ 624 ∧ c = b + g.p.toNat

theorem StandsAt.next {x : ℕ → BitVec 32} {c : ℕ} {g : Mt} (h : StandsAt x c g) :
    (mtNext g).1 = wide (tempered (twister x c)) ∧ StandsAt x (c + 1) (mtNext g).2 := by
  obtain ⟨b, hx, hp, rfl⟩ := h
  by_cases h6 : 624 ≤ g.p.toNat
  · have hp6 : g.p.toNat = 624 := le_antisymm hp h6
    have e : mtNext g = (mtTemper (mtGen g.x (ix (0 : U64).toNat)), ⟨mtGen g.x, 0 + 1⟩) := by
      simp only [mtNext, if_pos h6]
    rw [e, hx, mtGen_mixed]
    refine ⟨?_, b + 624, rfl, by show (1 : ℕ) ≤ 624; omega, ?_⟩
    · show mtTemper (mixed x (b + 624) 0 (ix 0)) = _
      rw [mixed, ix_val (by omega), if_neg (by omega), wide_temper, hp6, Nat.add_zero]
    · rw [hp6]; rfl
  · have e : mtNext g = (mtTemper (g.x (ix g.p.toNat)), ⟨g.x, g.p + 1⟩) := by
      rw [mtNext, if_neg h6]
    have e1 : (g.p + 1).toNat = g.p.toNat + 1 := by
      rw [BitVec.toNat_add, show (1 : U64).toNat = 1 from rfl, Nat.mod_eq_of_lt (by omega)]
    rw [e, hx]
    refine ⟨?_, b, rfl, ?_, ?_⟩
    · rw [mixed, ix_val (by omega), if_neg (by omega), wide_temper]
    · show (g.p + 1).toNat ≤ 624
      rw [e1]; omega
    · show _ = b + (g.p + 1).toNat
      rw [e1]; omega

theorem StandsAt.skip {x : ℕ → BitVec 32} {c : ℕ} {g : Mt} (h : StandsAt x c g) (n : ℕ) : StandsAt x (c + n) (mtSkip n g) := by
  induction n generalizing c g with
  | zero => exact h
  | succ n ih =>
    have := ih h.next.2
    rwa [show c + 1 + n = c + (n + 1) by omega] at this

theorem StandsAt.word {x : ℕ → BitVec 32} {c : ℕ} {g : Mt} (h : StandsAt x c g) (n : ℕ) :
    mtWord g n = wide (tempered (twister x (c + n))) := (h.skip n).next.1

theorem standsAt_reset (s : ℤ) : StandsAt (twisterStart (BitVec.ofInt 32 s)) 624 (rngReset s) := by
  refine ⟨0, ?_, le_refl _, rfl⟩
  funext i
  rw [mixed, if_neg (by omega), Nat.zero_add, twister_small _ i.isLt]
  exact wide_seed s i i.isLt

/-- A proper state belongs to the sequence that begins with its words. -/
theorem Mt.Proper.standsAt {g : Mt} (h : g.Proper) : StandsAt (fun i => (g.x (ix i)).setWidth 32) g.p.toNat g := by
  refine ⟨0, ?_, h.index, (Nat.zero_add _).symm⟩
  funext i
  rw [mixed, if_neg (by omega), Nat.zero_add, twister_small _ i.isLt]
  have e : ix i.val = i := Fin.ext (ix_val i.isLt)
  simp only [e]
  apply BitVec.eq_of_toNat_eq
  rw [wide_toNat, BitVec.toNat_setWidth, Nat.mod_eq_of_lt (h.word i)]

theorem mtSkip_add (m n : ℕ) (g : Mt) : mtSkip (m + n) g = mtSkip n (mtSkip m g) := by
  induction m generalizing g with
  | zero => rw [Nat.zero_add]; rfl
  | succ m ih => rw [show m + 1 + n = (m + n) + 1 by omega]; exact ih _

theorem mtWord_add (m n : ℕ) (g : Mt) : mtWord g (m + n) = mtWord (mtSkip m g) n := by
  rw [mtWord, mtSkip_add, mtWord]

/-! ## Nothing is lost -/

theorem shiftRight_self {d : BitVec 32} {k : ℕ} (hk : 0 < k) (h : d = d >>> k) : d = 0 := by
  have e := congrArg BitVec.toNat h
  rw [BitVec.toNat_ushiftRight, Nat.shiftRight_eq_div_pow] at e
  apply BitVec.eq_of_toNat_eq
  by_contra h0
  have h1 : 0 < d.toNat := Nat.pos_of_ne_zero h0
  have := Nat.div_lt_self h1 (Nat.one_lt_two_pow (n := k) (by omega))
  omega

theorem shiftLeft_self {d m : BitVec 32} {k : ℕ} (hk : 0 < k) (h : d = (d <<< k) &&& m) : d = 0 := by
  have key : ∀ i, d.getLsbD i = false := by
    intro i
    induction i using Nat.strong_induction_on with
    | _ i ih =>
      rw [h, BitVec.getLsbD_and, BitVec.getLsbD_shiftLeft]
      by_cases hi : i < k
      · simp [hi]
      · rw [ih (i - k) (by omega)]; simp
  ext i hi
  have := key i
  simpa [BitVec.getLsbD_eq_getElem hi] using this

theorem xor_swap {a b c d : BitVec 32} (h : a ^^^ c = b ^^^ d) : a ^^^ b = c ^^^ d := by
  have : a ^^^ b = (a ^^^ c) ^^^ (b ^^^ d) ^^^ (c ^^^ d) := by
    ext i hi
    simp only [BitVec.getElem_xor]
    cases a[i] <;> cases b[i] <;> cases c[i] <;> cases d[i] <;> rfl
  rw [this, h, BitVec.xor_self, BitVec.zero_xor]

theorem xor_shiftRight_inj {a b : BitVec 32} {k : ℕ} (hk : 0 < k) (h : a ^^^ (a >>> k) = b ^^^ (b >>> k)) : a = b := by
  have e := xor_swap h
  rw [← BitVec.ushiftRight_xor_distrib] at e
  exact BitVec.xor_eq_zero_iff.1 (shiftRight_self hk e)

theorem xor_shiftLeft_inj {a b m : BitVec 32} {k : ℕ} (hk : 0 < k) (h : a ^^^ ((a <<< k) &&& m) = b ^^^ ((b <<< k) &&& m)) : a = b := by
  have e := xor_swap h
  have e2 : ((a <<< k) &&& m) ^^^ ((b <<< k) &&& m) = ((a ^^^ b) <<< k) &&& m := by
    ext i hi
    simp only [BitVec.getElem_xor, BitVec.getElem_and, BitVec.getElem_shiftLeft]
    by_cases h1 : i < k
    · simp [h1]
    · simp only [h1, decide_false, Bool.not_false, Bool.true_and]
      cases m[i] <;> simp
  rw [e2] at e
  exact BitVec.xor_eq_zero_iff.1 (shiftLeft_self hk e)

theorem tempered_inj {a b : BitVec 32} (h : tempered a = tempered b) : a = b := by
  simp only [tempered] at h
  exact xor_shiftRight_inj (by omega) (xor_shiftLeft_inj (by omega) (xor_shiftLeft_inj (by omega) (xor_shiftRight_inj (by omega) h)))

theorem twistBy_inj {a b : BitVec 32} (h : twistBy a = twistBy b) : a = b := by
  have e0 : a.getLsbD 0 = b.getLsbD 0 := by
    have := congrArg (fun v : BitVec 32 => v.getLsbD 31) h
    simp only [twistBy, BitVec.getLsbD_xor, BitVec.getLsbD_ushiftRight] at this
    rw [BitVec.getLsbD_of_ge a (1 + 31) (by omega), BitVec.getLsbD_of_ge b (1 + 31) (by omega)] at this
    revert this
    cases a.getLsbD 0 <;> cases b.getLsbD 0 <;> decide
  simp only [twistBy, e0] at h
  have e1 : a >>> 1 = b >>> 1 := by
    have := xor_swap h
    rw [BitVec.xor_self] at this
    exact BitVec.xor_eq_zero_iff.1 this
  apply BitVec.eq_of_getLsbD_eq
  intro i hi
  rcases i with _ | i
  · exact e0
  · have := congrArg (fun v : BitVec 32 => v.getLsbD i) e1
    simp only [BitVec.getLsbD_ushiftRight] at this
    rwa [Nat.add_comm 1 i] at this

/-- Two words from which the same word is made agree in the first bit of the one and in the other bits of the other. -/
theorem headTail_inj {a b c d : BitVec 32} (h : headTail a b = headTail c d) :
    a.getLsbD 31 = c.getLsbD 31 ∧ ∀ i < 31, b.getLsbD i = d.getLsbD i := by
  have key : ∀ i, (headTail a b).getLsbD i = (headTail c d).getLsbD i := fun i => by rw [h]
  simp only [headTail, BitVec.getLsbD_append, BitVec.getLsbD_extractLsb'] at key
  refine ⟨?_, fun i hi => ?_⟩
  · simpa using key 31
  · simpa [hi] using key i

theorem headTail_congr {a b c d : BitVec 32} (h1 : a.getLsbD 31 = c.getLsbD 31) (h2 : b = d) : headTail a b = headTail c d := by
  subst h2
  apply BitVec.eq_of_getLsbD_eq
  intro i hi
  simp only [headTail, BitVec.getLsbD_append, BitVec.getLsbD_extractLsb']
  by_cases h : i < 31
  · simp [h]
  · have : i = 31 := by omega
    subst this
    simpa using h1

/-- Agreement of two sequences from the place `k` on, as far as it matters: one bit and 623 words. -/
def Agree (X Y : ℕ → BitVec 32) (k : ℕ) : Prop :=
  (X k).getLsbD 31 = (Y k).getLsbD 31 ∧ ∀ j < 623, X (k + 1 + j) = Y (k + 1 + j)

theorem Agree.back {x y : ℕ → BitVec 32} {k : ℕ} (h : Agree (twister x) (twister y) (k + 1)) : Agree (twister x) (twister y) k := by
  obtain ⟨h1, h2⟩ := h
  have e1 := h2 622 (by omega)
  have e2 := h2 395 (by omega)
  rw [show k + 1 + 1 + 622 = k + 624 by omega] at e1
  rw [show k + 1 + 1 + 395 = k + 397 by omega] at e2
  rw [twister_step, twister_step, e2] at e1
  have e3 : twistBy (headTail (twister x k) (twister x (k + 1))) = twistBy (headTail (twister y k) (twister y (k + 1))) := by
    have := xor_swap e1
    rw [BitVec.xor_self] at this
    exact BitVec.xor_eq_zero_iff.1 this.symm
  obtain ⟨h3, h4⟩ := headTail_inj (twistBy_inj e3)
  refine ⟨h3, fun j hj => ?_⟩
  rcases j with _ | j
  · apply BitVec.eq_of_getLsbD_eq
    intro i hi
    by_cases hi' : i < 31
    · exact h4 i hi'
    · have : i = 31 := by omega
      subst this; exact h1
  · have := h2 j (by omega)
    rwa [show k + 1 + 1 + j = k + 1 + (j + 1) by omega] at this

theorem Agree.forth {x y : ℕ → BitVec 32} {k : ℕ} (h : Agree (twister x) (twister y) k) : Agree (twister x) (twister y) (k + 1) := by
  obtain ⟨h1, h2⟩ := h
  refine ⟨by rw [show twister x (k + 1) = twister y (k + 1) from h2 0 (by omega)], fun j hj => ?_⟩
  by_cases h6 : j = 622
  · subst h6
    rw [show k + 1 + 1 + 622 = k + 624 by omega, twister_step, twister_step]
    have e2 := h2 396 (by omega)
    rw [show k + 1 + 396 = k + 397 by omega] at e2
    rw [e2, headTail_congr h1 (show twister x (k + 1) = twister y (k + 1) from h2 0 (by omega))]
  · have := h2 (j + 1) (by omega)
    rwa [show k + 1 + (j + 1) = k + 1 + 1 + j by omega] at this

theorem Agree.start {x y : ℕ → BitVec 32} {k : ℕ} (h : Agree (twister x) (twister y) k) : Agree (twister x) (twister y) 0 := by
  induction k with
  | zero => exact h
  | succ k ih => exact ih h.back

theorem Agree.later {x y : ℕ → BitVec 32} {k : ℕ} (h : Agree (twister x) (twister y) k) (n : ℕ) : Agree (twister x) (twister y) (k + n) := by
  induction n with
  | zero => exact h
  | succ n ih => exact ih.forth

/-- 624 words determine a sequence from there on. -/
theorem agree_of_words {x y : ℕ → BitVec 32} {k : ℕ} (h : ∀ j < 624, twister x (k + j) = twister y (k + j)) :
    Agree (twister x) (twister y) k := by
  refine ⟨by rw [show twister x k = twister y k from h 0 (by omega)], fun j hj => ?_⟩
  have := h (1 + j) (by omega)
  rwa [← Nat.add_assoc] at this

theorem words_of_agree {x y : ℕ → BitVec 32} {k : ℕ} (h : Agree (twister x) (twister y) k) (n : ℕ) :
    twister x (k + 1 + n) = twister y (k + 1 + n) := by
  have := (h.later n).2 0 (by omega)
  rwa [show k + n + 1 + 0 = k + 1 + n by omega] at this

theorem twisterStart_one_inj {s t : BitVec 32} (h : twisterStart s 1 = twisterStart t 1) : s = t := by
  have h' : (1812433253 : BitVec 32) * (s ^^^ (s >>> 30)) + BitVec.ofNat 32 1 = (1812433253 : BitVec 32) * (t ^^^ (t >>> 30)) + BitVec.ofNat 32 1 := h
  have e := (BitVec.add_left_inj _).1 h'
  have e2 := congrArg (fun v => (2520285293 : BitVec 32) * v) e
  simp only [← BitVec.mul_assoc] at e2
  rw [show (2520285293 : BitVec 32) * (1812433253 : BitVec 32) = 1#32 by decide, BitVec.one_mul, BitVec.one_mul] at e2
  exact xor_shiftRight_inj (by omega) e2

theorem twister_zero (i : ℕ) : twister (fun _ => 0) i = 0 := by
  induction i using Nat.strong_induction_on with
  | _ i ih =>
    rw [twister]
    split
    · rfl
    · rw [ih (i - 227) (by omega), ih (i - 624) (by omega), ih (i - 623) (by omega)]
      decide

end Feyn
