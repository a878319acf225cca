import Verif.Proof.Weights
import Mathlib.Data.Rat.Floor

/-!
# Weight look-ups (C26), composite propagators (C27), packed indices (C28), composite interactions (C29)
-/

namespace Feyn
set_option linter.unusedSectionVars false

section
variable {Q F : Type} [Field Q] [LinearOrder Q] [IsStrictOrderedRing Q] [FloorRing Q] [Field F]

/-- **C26**, propagators: seen from the IN end, the look-up with direction is the plain one; seen from the OUT end it is the
plain one with the ends exchanged. This includes all exceptional outcomes. -/
theorem C26_propagator (T : GTab Q F) (e : Ext Q) (r1 r2 : Site) (t1 t2 : Q) (s1 s2 : Spin) (isMeas isGam : Bool) :
    T.weight e IN r1 r2 t1 t2 s1 s2 isMeas isGam = T.weight0 e r1 r2 t1 t2 s1 s2 isMeas isGam ∧
    T.weight e OUT r1 r2 t1 t2 s1 s2 isMeas isGam = T.weight0 e r2 r1 t2 t1 s2 s1 isMeas isGam := by
  constructor <;> simp [GTab.weight, GTab.weight0]

variable [StarRing F]

/-- **C26**, interactions: the same unless the line is both measured and instantaneous, and lines of the worm do not depend
on the spins. -/
theorem C26_interaction (T : WTab Q F) (e : Ext Q) (r1 r2 : Site) (t1 t2 : Q) (s1 s2 : Dir → Spin)
    (isWorm isMeas isDelta isGam : Bool) :
    (¬ (isMeas = true ∧ isDelta = true) →
      T.weight e IN r1 r2 t1 t2 s1 s2 isWorm isMeas isDelta isGam = T.weight0 e r1 r2 t1 t2 s1 s2 isWorm isMeas isDelta isGam ∧
      T.weight e OUT r1 r2 t1 t2 s1 s2 isWorm isMeas isDelta isGam =
        T.weight0 e r2 r1 t2 t1 s2 s1 isWorm isMeas isDelta isGam) ∧
    (∀ s1' s2' : Dir → Spin,
      T.weight0 e r1 r2 t1 t2 s1 s2 true isMeas isDelta isGam = T.weight0 e r1 r2 t1 t2 s1' s2' true isMeas isDelta isGam ∧
      ∀ dir, T.weight e dir r1 r2 t1 t2 s1 s2 true isMeas isDelta isGam =
        T.weight e dir r1 r2 t1 t2 s1' s2' true isMeas isDelta isGam) := by
  constructor
  · intro hn
    cases isMeas <;> cases isDelta <;> simp at hn <;> constructor <;> simp [WTab.weight, WTab.weight0]
  · intro s1' s2'
    constructor
    · simp [WTab.weight0]
    · intro dir; simp [WTab.weight]

end

/-- A star structure on the rationals for examples with real weights. -/
local instance : StarRing ℚ := starRingOfComm

/-- Interactions whose measured table is 1 and whose instantaneous table is 7. -/
def disagreeW : WTab ℚ ℚ := ⟨⟨1, 1, [1, 1], 1, 4, 1⟩, ⟨16, fun _ => 0⟩, ⟨16, fun _ => 7⟩, ⟨16, fun _ => 1⟩, none⟩

/-- The exception in C26 is real: a measured instantaneous interaction has two different weights. -/
theorem C26_measured_delta_disagrees :
    disagreeW.weight ⟨0, ⟨0, 0, 0⟩, true⟩ IN ⟨0, 0, 0⟩ ⟨0, 0, 0⟩ 0 0 spinUpUp spinUpUp false true true false = .ok 1 ∧
    disagreeW.weight0 ⟨0, ⟨0, 0, 0⟩, true⟩ ⟨0, 0, 0⟩ ⟨0, 0, 0⟩ 0 0 spinUpUp spinUpUp false true true false = .ok 7 := by
  decide +kernel

/-- The two look-ups on a smooth line with different ends, seen from its OUT end. -/
example : (⟨⟨1, 2, [2, 1], 1, 2, -1⟩, ⟨16, fun i => i⟩, ⟨16, fun _ => 1⟩, none⟩ : GTab ℚ ℚ).weight
    ⟨0, ⟨0, 0, 0⟩, true⟩ OUT ⟨0, 0, 0⟩ ⟨0, 1, 0⟩ 0 (1 / 2) true false false false = .ok (-7) ∧
    (⟨⟨1, 2, [2, 1], 1, 2, -1⟩, ⟨16, fun i => i⟩, ⟨16, fun _ => 1⟩, none⟩ : GTab ℚ ℚ).weight0
    ⟨0, ⟨0, 0, 0⟩, true⟩ ⟨0, 1, 0⟩ ⟨0, 0, 0⟩ (1 / 2) 0 false true false false = .ok (-7) := by decide +kernel

/-! ### C27 -/

section
variable {Q F : Type} [Field Q] [LinearOrder Q] [IsStrictOrderedRing Q] [FloorRing Q] [Field F]

/-- **C27.** The cells of a three-point propagator table are numbered injectively by spin, relative coordinate and two time
bins; evaluating reads exactly the cell that measuring adds to, with the same sign, which has one factor `-1` per folded
time difference. -/
theorem C27_same_cell_and_sign {g : GammaG Q F} (h : g.Wf) :
    ∃ cell : Spin → List ℤ → ℤ → ℤ → ℤ,
      (∀ s s' c c' b1 b2 b1' b2', InLat g.lat c → InLat g.lat c' → 0 ≤ b1 → b1 < (g.bins : ℤ) → 0 ≤ b2 → b2 < (g.bins : ℤ) →
        0 ≤ b1' → b1' < (g.bins : ℤ) → 0 ≤ b2' → b2' < (g.bins : ℤ) → cell s c b1 b2 = cell s' c' b1' b2' →
        s = s' ∧ c = c' ∧ b1 = b1' ∧ b2 = b2') ∧
      ∀ (rin ur : Site) (tin tout ut : Q) (s : Spin), InLat g.lat rin.vec → InLat g.lat ur.vec →
        -g.beta ≤ tout - ut → tout - ut < g.beta → -g.beta ≤ tin - ut → tin - ut < g.beta →
        ∃ b1 b2 i, InBin g.beta g.bins (tout - ut) b1 ∧ InBin g.beta g.bins (tin - ut) b2 ∧
          i = cell s (relCoord g.lat rin ur) b1 b2 ∧ 0 ≤ i ∧ i < g.weight.n ∧ i < g.accu.n ∧
          g.eval rin ur tin tout ut s =
            .ok (g.weight.data i * ((foldSign (tout - ut) * foldSign (tin - ut) : ℤ) : F)) ∧
          ∀ w, g.measure rin ur tin tout ut s w = .ok { g with
            accu := g.accu.plus i (w * ((foldSign (tout - ut) * foldSign (tin - ut) : ℤ) : F)) } := by
  refine ⟨gammaCell g, ?_, ?_⟩
  · intro s s' c c' b1 b2 b1' b2' q1 q2 q3 q4 q5 q6 q7 q8 q9 q10 e
    exact gammaCell_inj h q1 ⟨q3, q4⟩ ⟨q5, q6⟩ q2 ⟨q7, q8⟩ ⟨q9, q10⟩ e
  · intro rin ur tin tout ut s hr hu a1 a2 a3 a4
    obtain ⟨b1, k1⟩ := exists_bin h.beta h.bins a1 a2
    obtain ⟨b2, k2⟩ := exists_bin h.beta h.bins a3 a4
    have k := gammaCell_range h (s := s) (relCoord_in hr hu) ⟨k1.1, k1.2.1⟩ ⟨k2.1, k2.2.1⟩
    exact ⟨b1, b2, _, k1, k2, rfl, k.1, by rw [h.weight]; exact k.2, by rw [h.accu]; exact k.2, gammaG_eval h hr hu k1 k2,
      gammaG_measure h hr hu k1 k2⟩

/-- Apply a function to a normal result. -/
def Res.map' {α β : Type} (f : α → β) : Res α → Res β
  | .ok a => .ok (f a)
  | .abort => .abort
  | .ub => .ub

/-- **C27**, antiperiodicity: shifting one time by `β` flips the sign. -/
theorem C27_antiperiodic {g : GammaG Q F} (h : g.Wf) {rin ur : Site} {tin tout ut : Q} {s : Spin}
    (hr : InLat g.lat rin.vec) (hu : InLat g.lat ur.vec) (a1 : -g.beta ≤ tout - ut) (a2 : tout - ut < g.beta)
    (a3 : -g.beta ≤ tin - ut) (a4 : tin - ut < g.beta) :
    (∃ x, g.eval rin ur tin tout ut s = .ok x) ∧
    (tout < ut → g.eval rin ur tin (tout + g.beta) ut s = (g.eval rin ur tin tout ut s).map' Neg.neg) ∧
    (tin < ut → g.eval rin ur (tin + g.beta) tout ut s = (g.eval rin ur tin tout ut s).map' Neg.neg) := by
  obtain ⟨b1, k1⟩ := exists_bin h.beta h.bins a1 a2
  obtain ⟨b2, k2⟩ := exists_bin h.beta h.bins a3 a4
  have shift : ∀ {t : Q} {b : ℤ}, InBin g.beta g.bins t b → -g.beta ≤ t → t < 0 →
      InBin g.beta g.bins (t + g.beta) b ∧ foldSign (t + g.beta) = -foldSign t := by
    intro t b k l1 l2
    have e : foldTau g.beta (t + g.beta) = foldTau g.beta t := by
      unfold foldTau; rw [if_neg (by linarith), if_pos l2]
    refine ⟨⟨k.1, k.2.1, by rw [e]; exact k.2.2.1, by rw [e]; exact k.2.2.2⟩, ?_⟩
    unfold foldSign; rw [if_neg (by linarith), if_pos l2]; rfl
  rw [gammaG_eval h hr hu k1 k2]
  refine ⟨⟨_, rfl⟩, fun l => ?_, fun l => ?_⟩
  · obtain ⟨m1, m2⟩ := shift k1 a1 (by linarith)
    have e : tout + g.beta - ut = tout - ut + g.beta := by ring
    rw [← e] at m1 m2
    rw [gammaG_eval h hr hu m1 k2, m2]
    simp [Res.map']
  · obtain ⟨m1, m2⟩ := shift k2 a3 (by linarith)
    have e : tin + g.beta - ut = tin - ut + g.beta := by ring
    rw [← e] at m1 m2
    rw [gammaG_eval h hr hu k1 m1, m2]
    simp [Res.map']

end

/-- A three-point table on a 2 by 3 lattice with 4 bins and `β = 2`, cell `i` holding `i`. -/
def demoGammaG : GammaG ℚ ℚ := ⟨2, 4, [2, 3], ⟨192, fun i => i⟩, ⟨192, fun _ => 0⟩, 0⟩

theorem demoGammaG_wf : demoGammaG.Wf :=
  ⟨by simp [demoGammaG], by simp [demoGammaG], ⟨by simp [demoGammaG], by simp [demoGammaG]⟩, rfl, by decide, by decide, by decide⟩

example : demoGammaG.eval ⟨0, 1, 0⟩ ⟨0, 0, 2⟩ (1 / 4) (1 / 2) 1 true = .ok 190 ∧
    demoGammaG.eval ⟨0, 1, 0⟩ ⟨0, 0, 2⟩ (1 / 4) (5 / 2) 1 true = .ok (-190) := by decide +kernel

/-! ### C28 -/

section
variable {Q : Type} [Field Q] [LinearOrder Q] [IsStrictOrderedRing Q] [FloorRing Q]

/-- **C28.** With `n = bins * vol` space-time points, the packed index of two points lies below `n(n+1)/2`, does not depend
on their order, is the same only for the same unordered pair, and reaches every value. The symmetry factor counts the
orders of the pair. -/
theorem C28_packed_index {β : Q} {bins : ℕ} {vol : ℤ} (hβ : 0 < β) (hb : 0 < bins) (hv : 0 < vol)
    (hf : ((bins : ℤ) * vol) * ((bins : ℤ) * vol) < 4294967296) :
    (∀ r1 r2 t1 t2, 0 ≤ r1 → r1 < vol → 0 ≤ r2 → r2 < vol → -β ≤ t1 → t1 < β → -β ≤ t2 → t2 < β →
      0 ≤ (packedIndex β bins vol r1 r2 t1 t2).1 ∧
      2 * (packedIndex β bins vol r1 r2 t1 t2).1 < (bins : ℤ) * vol * ((bins : ℤ) * vol + 1) ∧
      (packedIndex β bins vol r1 r2 t1 t2).1 = (packedIndex β bins vol r2 r1 t2 t1).1) ∧
    (∀ r1 r2 t1 t2 b1 b2 r1' r2' t1' t2' b1' b2', 0 ≤ r1 → r1 < vol → 0 ≤ r2 → r2 < vol → InBin β bins t1 b1 →
      InBin β bins t2 b2 → 0 ≤ r1' → r1' < vol → 0 ≤ r2' → r2' < vol → InBin β bins t1' b1' → InBin β bins t2' b2' →
      ((packedIndex β bins vol r1 r2 t1 t2).1 = (packedIndex β bins vol r1' r2' t1' t2').1 ↔
        (r1 = r1' ∧ b1 = b1' ∧ r2 = r2' ∧ b2 = b2') ∨ (r1 = r2' ∧ b1 = b2' ∧ r2 = r1' ∧ b2 = b1'))) ∧
    (∀ k : ℕ, 2 * (k : ℤ) < (bins : ℤ) * vol * ((bins : ℤ) * vol + 1) → ∃ r1 r2 t1 t2, 0 ≤ r1 ∧ r1 < vol ∧ 0 ≤ r2 ∧
      r2 < vol ∧ 0 ≤ t1 ∧ t1 < β ∧ 0 ≤ t2 ∧ t2 < β ∧ (packedIndex β bins vol r1 r2 t1 t2).1 = k) ∧
    (∀ r1 r2 t1 t2 b1 b2, 0 ≤ r1 → r1 < vol → 0 ≤ r2 → r2 < vol → InBin β bins t1 b1 → InBin β bins t2 b2 →
      (packedIndex β bins vol r1 r2 t1 t2).2.1 = if r1 = r2 ∧ b1 = b2 then 1 else 2) := by
  have hb' : (0 : ℤ) < (bins : ℤ) := by omega
  have hn : 0 < (bins : ℤ) * vol := by positivity
  have hp : ∀ {r b : ℤ}, 0 ≤ r ∧ r < vol → 0 ≤ b ∧ b < (bins : ℤ) → 0 ≤ r * bins + b ∧ r * bins + b < (bins : ℤ) * vol := by
    intro r b q q'
    constructor <;> nlinarith
  have hinj : ∀ {r b r' b' : ℤ}, 0 ≤ b ∧ b < (bins : ℤ) → 0 ≤ b' ∧ b' < (bins : ℤ) → r * bins + b = r' * bins + b' →
      r = r' ∧ b = b' := by
    intro r b r' b' q q' e
    have : r = r' := by
      rcases lt_trichotomy r r' with c | c | c
      · nlinarith
      · exact c
      · nlinarith
    subst this
    exact ⟨rfl, by linarith⟩
  refine ⟨?_, ?_, ?_, ?_⟩
  · intro r1 r2 t1 t2 a1 a2 a3 a4 a5 a6 a7 a8
    obtain ⟨b1, k1⟩ := exists_bin hβ hb a5 a6
    obtain ⟨b2, k2⟩ := exists_bin hβ hb a7 a8
    rw [packed_eq hβ hb hf ⟨a1, a2⟩ ⟨a3, a4⟩ k1 k2, packed_eq hβ hb hf ⟨a3, a4⟩ ⟨a1, a2⟩ k2 k1]
    have p1 := hp ⟨a1, a2⟩ ⟨k1.1, k1.2.1⟩
    have p2 := hp ⟨a3, a4⟩ ⟨k2.1, k2.2.1⟩
    have := tri_range (n := (bins : ℤ) * vol) (le_min p1.1 p2.1) (min_le_max) (max_lt p1.2 p2.2)
    exact ⟨this.1, this.2, by simp only [min_comm, max_comm]⟩
  · intro r1 r2 t1 t2 b1 b2 r1' r2' t1' t2' b1' b2' a1 a2 a3 a4 k1 k2 a1' a2' a3' a4' k1' k2'
    rw [packed_eq hβ hb hf ⟨a1, a2⟩ ⟨a3, a4⟩ k1 k2, packed_eq hβ hb hf ⟨a1', a2'⟩ ⟨a3', a4'⟩ k1' k2']
    have p1 := hp ⟨a1, a2⟩ ⟨k1.1, k1.2.1⟩
    have p2 := hp ⟨a3, a4⟩ ⟨k2.1, k2.2.1⟩
    have p1' := hp ⟨a1', a2'⟩ ⟨k1'.1, k1'.2.1⟩
    have p2' := hp ⟨a3', a4'⟩ ⟨k2'.1, k2'.2.1⟩
    constructor
    · intro e
      obtain ⟨e1, e2⟩ := tri_inj (le_min p1.1 p2.1) min_le_max (max_lt p1.2 p2.2) (le_min p1'.1 p2'.1) min_le_max
        (max_lt p1'.2 p2'.2) e
      have : (r1 * bins + b1 = r1' * bins + b1' ∧ r2 * bins + b2 = r2' * bins + b2') ∨
          (r1 * bins + b1 = r2' * bins + b2' ∧ r2 * bins + b2 = r1' * bins + b1') := by omega
      rcases this with ⟨q1, q2⟩ | ⟨q1, q2⟩
      · obtain ⟨m1, m2⟩ := hinj ⟨k1.1, k1.2.1⟩ ⟨k1'.1, k1'.2.1⟩ q1
        obtain ⟨m3, m4⟩ := hinj ⟨k2.1, k2.2.1⟩ ⟨k2'.1, k2'.2.1⟩ q2
        exact .inl ⟨m1, m2, m3, m4⟩
      · obtain ⟨m1, m2⟩ := hinj ⟨k1.1, k1.2.1⟩ ⟨k2'.1, k2'.2.1⟩ q1
        obtain ⟨m3, m4⟩ := hinj ⟨k2.1, k2.2.1⟩ ⟨k1'.1, k1'.2.1⟩ q2
        exact .inr ⟨m1, m2, m3, m4⟩
    · rintro (⟨rfl, rfl, rfl, rfl⟩ | ⟨rfl, rfl, rfl, rfl⟩)
      · rfl
      · simp only [min_comm, max_comm]
  · intro k hk
    obtain ⟨a, b, h1, h2, h3, e⟩ := tri_surj hn k hk
    have hbQ : (0 : Q) < (bins : Q) := Nat.cast_pos.2 hb
    have pt : ∀ p : ℤ, 0 ≤ p → p < (bins : ℤ) * vol → 0 ≤ p / bins ∧ p / bins < vol ∧
        InBin β bins (((p % bins : ℤ) : Q) * (β / (bins : Q))) (p % bins) ∧ p / bins * bins + p % bins = p ∧
        0 ≤ ((p % bins : ℤ) : Q) * (β / (bins : Q)) ∧ ((p % bins : ℤ) : Q) * (β / (bins : Q)) < β := by
      intro p p0 p1
      have m0 := Int.emod_nonneg p hb'.ne'
      have m1 := Int.emod_lt_of_pos p hb'
      have mq : (0 : Q) ≤ ((p % bins : ℤ) : Q) := by exact_mod_cast m0
      have mq1 : ((p % bins : ℤ) : Q) < (bins : Q) := by exact_mod_cast m1
      have hd : 0 < β / (bins : Q) := div_pos hβ hbQ
      have hm : (bins : Q) * (β / (bins : Q)) = β := by field_simp
      have n0 : 0 ≤ ((p % bins : ℤ) : Q) * (β / (bins : Q)) := mul_nonneg mq hd.le
      refine ⟨Int.ediv_nonneg p0 hb'.le, ?_, ⟨m0, m1, ?_, ?_⟩, Int.ediv_mul_add_emod p bins, n0, ?_⟩
      · exact Int.ediv_lt_of_lt_mul hb' (by linarith)
      · unfold foldTau; rw [if_neg (by linarith)]
      · unfold foldTau; rw [if_neg (by linarith)]; nlinarith
      · nlinarith
    obtain ⟨c1, c2, c3, c4, c5, c6⟩ := pt a h1 (by omega)
    obtain ⟨d1, d2, d3, d4, d5, d6⟩ := pt b (by omega) h3
    refine ⟨_, _, _, _, c1, c2, d1, d2, c5, c6, d5, d6, ?_⟩
    rw [packed_eq hβ hb hf ⟨c1, c2⟩ ⟨d1, d2⟩ c3 d3, c4, d4, min_eq_left h2, max_eq_right h2]
    exact e
  · intro r1 r2 t1 t2 b1 b2 a1 a2 a3 a4 k1 k2
    rw [packed_eq hβ hb hf ⟨a1, a2⟩ ⟨a3, a4⟩ k1 k2]
    simp only
    by_cases c : r1 = r2 ∧ b1 = b2
    · rw [if_pos c, if_pos (by rw [c.1, c.2])]
    · rw [if_neg c, if_neg fun e => c (hinj ⟨k1.1, k1.2.1⟩ ⟨k2.1, k2.2.1⟩ e)]

end

/-- Two of the six points of a 3 site lattice with 2 bins, in both orders. -/
example : (packedIndex (1 : ℚ) 2 3 2 0 (1 / 4) (-1 / 4)).1 = 9 ∧ (packedIndex (1 : ℚ) 2 3 0 2 (-1 / 4) (1 / 4)).1 = 9 ∧
    (packedIndex (1 : ℚ) 2 3 2 2 (-1 / 4) (3 / 4)) = (20, 1, false) := by decide +kernel

/-! ### C29 -/

section
variable {Q F : Type} [Field Q] [LinearOrder Q] [IsStrictOrderedRing Q] [FloorRing Q] [Field F] [StarRing F]

/-- **C29**, four of the six spin channels: evaluating a table that was filled by one measurement of `w` returns `w` divided
by the symmetry factor of the coordinates. Missing: the channels 4 and 5, for which this is false. -/
theorem C29_echo_partial {g : GammaW Q F} (h : g.Wf) (hz : ∀ i, g.accu.data i = 0) {rin rout ur : Site} {tin tout ut : Q}
    (hi : InLat g.lat rin.vec) (ho : InLat g.lat rout.vec) (hu : InLat g.lat ur.vec)
    (a1 : -g.beta ≤ tout - ut) (a2 : tout - ut < g.beta) (a3 : -g.beta ≤ tin - ut) (a4 : tin - ut < g.beta) :
    ∃ c ∈ g.rSymFactor, ∃ e ∈ g.tauSymFactor, ((c * e : ℤ) : F) ≠ 0 ∧
      ∀ (sin sout : Dir → Spin) (w : F), sin IN = sin OUT → sout IN = sout OUT →
        g.echo rin rout ur tin tout ut sin sout w = .ok (w / ((c * e : ℤ) : F)) := by
  obtain ⟨c, hc, e, he, hS, k⟩ := gammaW_echo h hz hi ho hu a1 a2 a3 a4
  refine ⟨c, hc, e, he, hS, fun sin sout w q1 q2 => ?_⟩
  rw [k, if_pos]
  unfold gammaSpinIndex
  cases h1 : sin false <;> cases h2 : sin true <;> cases h3 : sout false <;> cases h4 : sout true <;> simp_all

/-- The spin-flip channels return half of the negated complex conjugate, which is the weight of the other spin-flip
channel. -/
theorem C29_flip_channels {g : GammaW Q F} (h : g.Wf) (hz : ∀ i, g.accu.data i = 0) {rin rout ur : Site} {tin tout ut : Q}
    (hi : InLat g.lat rin.vec) (ho : InLat g.lat rout.vec) (hu : InLat g.lat ur.vec)
    (a1 : -g.beta ≤ tout - ut) (a2 : tout - ut < g.beta) (a3 : -g.beta ≤ tin - ut) (a4 : tin - ut < g.beta) :
    ∃ c ∈ g.rSymFactor, ∃ e ∈ g.tauSymFactor, ((c * e : ℤ) : F) ≠ 0 ∧
      ∀ (sin sout : Dir → Spin) (w : F), sin IN = !sin OUT → sout IN = !sout OUT → sin IN = !sout IN →
        g.echo rin rout ur tin tout ut sin sout w = .ok (-(star w) / (2 * ((c * e : ℤ) : F))) := by
  obtain ⟨c, hc, e, he, hS, k⟩ := gammaW_echo h hz hi ho hu a1 a2 a3 a4
  refine ⟨c, hc, e, he, hS, fun sin sout w q1 q2 q3 => ?_⟩
  have : gammaSpinIndex sout sin = 4 ∨ gammaSpinIndex sout sin = 5 := by
    unfold gammaSpinIndex
    cases h1 : sin false <;> cases h2 : sin true <;> cases h3 : sout false <;> cases h4 : sout true <;> simp_all
  rw [k]
  rcases this with r | r <;> rw [r] <;> norm_num

end

/-- A composite interaction on two sites with one bin, without symmetries. -/
def demoGammaW : GammaW ℚ ℚ := ⟨1, 1, [2, 1], ⟨8, fun _ => 0⟩, ⟨8, fun _ => 0⟩, 0, [0, 1, 2, 3], [1, 1, 1, 1], [0], [1], [0], 4, 1⟩

theorem demoGammaW_wf : demoGammaW.Wf where
  beta := by simp [demoGammaW]
  bins := by simp [demoGammaW]
  lat := ⟨by simp [demoGammaW], by simp [demoGammaW]⟩
  dim := rfl
  rSqueeze := by decide
  rSym := by decide
  tauSqueeze := by decide
  tauSym := by decide
  tauFlag := by decide
  rVal := by decide
  tauVal := by decide
  rSymVal := by simp [demoGammaW]
  tauSymVal := by simp [demoGammaW]
  fits := by decide
  weight := by decide
  accu := by decide

/-- **C29 is violated** in the spin-flip channels: a measured weight of 2 is evaluated as -1. -/
theorem C29_refuted : demoGammaW.Wf ∧ (∀ x ∈ demoGammaW.rSymFactor, x = 1) ∧ (∀ x ∈ demoGammaW.tauSymFactor, x = 1) ∧
    demoGammaW.echo ⟨0, 0, 0⟩ ⟨0, 1, 0⟩ ⟨0, 0, 0⟩ 0 0 0 (fun e => e) (fun e => !e) 2 = .ok (-1) ∧
    demoGammaW.echo ⟨0, 0, 0⟩ ⟨0, 1, 0⟩ ⟨0, 0, 0⟩ 0 0 0 (fun e => !e) (fun e => e) 2 = .ok (-1) :=
  ⟨demoGammaW_wf, by decide, by decide, by decide +kernel, by decide +kernel⟩

/-- The other channels on the same table. -/
example : demoGammaW.echo ⟨0, 0, 0⟩ ⟨0, 1, 0⟩ ⟨0, 0, 0⟩ 0 0 0 (fun _ => true) (fun _ => false) 2 = .ok 2 := by decide +kernel

end Feyn
