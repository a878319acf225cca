import Verif.Spec.Weights
import Verif.Proof.IndexMap
import Mathlib.Tactic.FieldSimp
import Mathlib.Tactic.Ring

/-!
# Look-ups of composite weights: proofs
-/

namespace Feyn
set_option linter.unusedSectionVars false

theorem u32_of {x : ℤ} (h0 : 0 ≤ x) (h1 : x < 4294967296) : u32 x = x := Int.emod_eq_of_lt h0 h1

section
variable {Q F : Type} [Field Q] [LinearOrder Q] [IsStrictOrderedRing Q] [FloorRing Q] [Field F]

theorem floor_of_bin {β : Q} {n : ℕ} (hβ : 0 < β) (hn : 0 < n) {s : Q} {b : ℤ}
    (h1 : (b : Q) * (β / (n : Q)) ≤ s) (h2 : s < ((b : Q) + 1) * (β / (n : Q))) : ⌊s * ((n : Q) / β)⌋ = b := by
  have hn' : (0 : Q) < (n : Q) := Nat.cast_pos.2 hn
  have e : s * ((n : Q) / β) = s / (β / (n : Q)) := by field_simp
  have hp : 0 < β / (n : Q) := div_pos hβ hn'
  rw [e, Int.floor_eq_iff, le_div_iff₀ hp, div_lt_iff₀ hp]
  exact ⟨h1, h2⟩

theorem bin_of_fold {β : Q} {n : ℕ} (hβ : 0 < β) (hn : 0 < n) {t : Q} {b : ℤ} (h : InBin β n t b) :
    ⌊(if t < 0 then t + β else t) * ((n : Q) / β)⌋ = b := floor_of_bin hβ hn h.2.2.1 h.2.2.2

/-- Every difference of the window has a bin. -/
theorem exists_bin {β : Q} {n : ℕ} (hβ : 0 < β) (hn : 0 < n) {t : Q} (h1 : -β ≤ t) (h2 : t < β) : ∃ b, InBin β n t b := by
  have hn' : (0 : Q) < (n : Q) := Nat.cast_pos.2 hn
  have hp : 0 < β / (n : Q) := div_pos hβ hn'
  have s0 : 0 ≤ foldTau β t := by unfold foldTau; split_ifs <;> linarith
  have s1 : foldTau β t < β := by unfold foldTau; split_ifs <;> linarith
  refine ⟨⌊foldTau β t / (β / (n : Q))⌋, Int.floor_nonneg.2 (div_nonneg s0 hp.le), ?_, ?_, ?_⟩
  · rw [Int.floor_lt, div_lt_iff₀ hp]
    push_cast
    have : (n : Q) * (β / (n : Q)) = β := by field_simp
    rw [this]; exact s1
  · rw [← le_div_iff₀ hp]; exact Int.floor_le _
  · rw [← div_lt_iff₀ hp]; exact Int.lt_floor_add_one _

/-! ### Three-point propagator table -/

/-- The cell of a three-point propagator table. -/
def gammaCell (g : GammaG Q F) (s : Spin) (rel : List ℤ) (b1 b2 : ℤ) : ℤ :=
  dot (updateCache [2, latVol g.lat, (g.bins : ℤ), (g.bins : ℤ)]).1 [spinNum s, vec2Index g.lat rel, b1, b2]

theorem spinNum_range (s : Spin) : 0 ≤ spinNum s ∧ spinNum s < 2 := by cases s <;> decide
theorem spinNum_inj {s s' : Spin} (h : spinNum s = spinNum s') : s = s' := by revert s s'; decide

section
variable {g : GammaG Q F} (h : g.Wf)
include h

theorem gShape_pos : ∀ x ∈ [2, latVol g.lat, (g.bins : ℤ), (g.bins : ℤ)], 0 < x := by
  have := latVol_pos h.lat.2
  have := h.bins
  intro x hx
  simp only [List.mem_cons, List.not_mem_nil, or_false] at hx
  rcases hx with rfl | rfl | rfl | rfl <;> omega

theorem gShape_vol : latVol [2, latVol g.lat, (g.bins : ℤ), (g.bins : ℤ)] = 2 * latVol g.lat * (g.bins : ℤ) * (g.bins : ℤ) := by
  simp only [latVol_cons, latVol_nil]; ring

theorem gShape_fits : latVol [2, latVol g.lat, (g.bins : ℤ), (g.bins : ℤ)] < 4294967296 := by
  rw [gShape_vol h]; exact h.fits

theorem gammaCell_digits {s : Spin} {rel : List ℤ} {b1 b2 : ℤ} (hr : InLat g.lat rel) (h1 : 0 ≤ b1 ∧ b1 < (g.bins : ℤ))
    (h2 : 0 ≤ b2 ∧ b2 < (g.bins : ℤ)) :
    InLat [2, latVol g.lat, (g.bins : ℤ), (g.bins : ℤ)] [spinNum s, vec2Index g.lat rel, b1, b2] := by
  have := (index_round_trip h.lat).1 _ hr
  exact .cons (spinNum_range s) (.cons ⟨this.1, this.2.1⟩ (.cons h1 (.cons h2 .nil)))

theorem gammaCell_range {s : Spin} {rel : List ℤ} {b1 b2 : ℤ} (hr : InLat g.lat rel) (h1 : 0 ≤ b1 ∧ b1 < (g.bins : ℤ))
    (h2 : 0 ≤ b2 ∧ b2 < (g.bins : ℤ)) :
    0 ≤ gammaCell g s rel b1 b2 ∧ gammaCell g s rel b1 b2 < 2 * latVol g.lat * (g.bins : ℤ) * (g.bins : ℤ) := by
  rw [← gShape_vol h]
  exact dot_range (gShape_pos h) (gShape_fits h) (gammaCell_digits h hr h1 h2)

theorem gammaCell_inj {s s' : Spin} {rel rel' : List ℤ} {b1 b2 b1' b2' : ℤ} (hr : InLat g.lat rel)
    (h1 : 0 ≤ b1 ∧ b1 < (g.bins : ℤ)) (h2 : 0 ≤ b2 ∧ b2 < (g.bins : ℤ)) (hr' : InLat g.lat rel')
    (h1' : 0 ≤ b1' ∧ b1' < (g.bins : ℤ)) (h2' : 0 ≤ b2' ∧ b2' < (g.bins : ℤ))
    (e : gammaCell g s rel b1 b2 = gammaCell g s' rel' b1' b2') : s = s' ∧ rel = rel' ∧ b1 = b1' ∧ b2 = b2' := by
  have := dot_inj (gShape_pos h) (gShape_fits h) (gammaCell_digits h hr h1 h2) (gammaCell_digits h hr' h1' h2') e
  simp only [List.cons.injEq, and_true] at this
  exact ⟨spinNum_inj this.1, vec2Index_inj h.lat hr hr' this.2.1, this.2.2⟩

theorem gammaCell_eq {s : Spin} {rel : List ℤ} {b1 b2 : ℤ} (hr : InLat g.lat rel) (h1 : 0 ≤ b1 ∧ b1 < (g.bins : ℤ))
    (h2 : 0 ≤ b2 ∧ b2 < (g.bins : ℤ)) :
    u32 (spinNum s * g.cache 3 + vec2Index g.lat rel * g.cache 2 + b1 * g.cache 1 + b2) = gammaCell g s rel b1 b2 := by
  have hp := latVol_pos h.lat.2
  have hb : (1 : ℤ) ≤ (g.bins : ℤ) := by have := h.bins; omega
  have hf := h.fits
  have m1 : (g.bins : ℤ) ≤ (g.bins : ℤ) * g.bins := by nlinarith
  have m2 : (g.bins : ℤ) * g.bins ≤ (g.bins : ℤ) * g.bins * latVol g.lat := by nlinarith
  have e0 : 2 * latVol g.lat * (g.bins : ℤ) * (g.bins : ℤ) = 2 * ((g.bins : ℤ) * g.bins * latVol g.lat) := by ring
  rw [e0] at hf
  have c1 : u32 (g.bins : ℤ) = g.bins := u32_of (by omega) (by omega)
  have c2 : u32 ((g.bins : ℤ) * g.bins) = (g.bins : ℤ) * g.bins := u32_of (by omega) (by omega)
  have c3 : u32 ((g.bins : ℤ) * g.bins * latVol g.lat) = (g.bins : ℤ) * g.bins * latVol g.lat := u32_of (by omega) (by omega)
  have e : spinNum s * g.cache 3 + vec2Index g.lat rel * g.cache 2 + b1 * g.cache 1 + b2 = gammaCell g s rel b1 b2 := by
    have c0 : u32 1 = 1 := rfl
    simp [GammaG.cache, gammaCell, dot, updateCache, c1, c2, c3, add_assoc]
  rw [e]
  have := gammaCell_range h (s := s) hr h1 h2
  rw [e0] at this
  exact u32_of this.1 (lt_trans this.2 hf)

theorem foldSign_mul (a b : Q) :
    (if b < 0 then -(if a < 0 then -(1 : ℤ) else 1) else if a < 0 then -(1 : ℤ) else 1) = foldSign a * foldSign b := by
  unfold foldSign; split_ifs <;> simp

theorem gammaG_eval {rin ur : Site} {tin tout ut : Q} {s : Spin} {b1 b2 : ℤ} (hr : InLat g.lat rin.vec)
    (hu : InLat g.lat ur.vec) (h1 : InBin g.beta g.bins (tout - ut) b1) (h2 : InBin g.beta g.bins (tin - ut) b2) :
    g.eval rin ur tin tout ut s = .ok (g.weight.data (gammaCell g s (relCoord g.lat rin ur) b1 b2) *
      ((foldSign (tout - ut) * foldSign (tin - ut) : ℤ) : F)) := by
  have hc := relCoord_in hr hu
  have k := gammaCell_range h (s := s) hc ⟨h1.1, h1.2.1⟩ ⟨h2.1, h2.2.1⟩
  unfold GammaG.eval
  simp only [bin_of_fold h.beta h.bins h1, bin_of_fold h.beta h.bins h2, coordi_rel hr hu]
  rw [gammaCell_eq h hc ⟨h1.1, h1.2.1⟩ ⟨h2.1, h2.2.1⟩, foldSign_mul h]
  unfold Arr.at
  rw [if_pos ⟨k.1, by rw [h.weight]; exact k.2⟩]
  rfl

theorem gammaG_measure {rin ur : Site} {tin tout ut : Q} {s : Spin} {b1 b2 : ℤ} (hr : InLat g.lat rin.vec)
    (hu : InLat g.lat ur.vec) (h1 : InBin g.beta g.bins (tout - ut) b1) (h2 : InBin g.beta g.bins (tin - ut) b2) (w : F) :
    g.measure rin ur tin tout ut s w = .ok { g with
      accu := g.accu.plus (gammaCell g s (relCoord g.lat rin ur) b1 b2)
        (w * ((foldSign (tout - ut) * foldSign (tin - ut) : ℤ) : F)) } := by
  have hc := relCoord_in hr hu
  have k := gammaCell_range h (s := s) hc ⟨h1.1, h1.2.1⟩ ⟨h2.1, h2.2.1⟩
  unfold GammaG.measure
  simp only [bin_of_fold h.beta h.bins h1, bin_of_fold h.beta h.bins h2, coordi_rel hr hu]
  rw [gammaCell_eq h hc ⟨h1.1, h1.2.1⟩ ⟨h2.1, h2.2.1⟩, foldSign_mul h]
  unfold Arr.add
  rw [if_pos ⟨k.1, by rw [h.accu]; exact k.2⟩]
  simp only [Res.ok_bind, Arr.plus]
  congr 3
  funext j
  simp only [Function.update_apply]
  split_ifs with q
  · rw [q]
  · rfl

end

/-! ### Packed triangular index -/

/-- Position of the pair `row ≤ col` in the packed upper triangle. -/
def tri (n row col : ℤ) : ℤ := n * row + col - row * (row + 1) / 2

theorem tri_two (n row col : ℤ) : 2 * tri n row col = 2 * n * row + 2 * col - row * (row + 1) := by
  have : row * (row + 1) / 2 * 2 = row * (row + 1) := Int.ediv_mul_cancel (Int.even_mul_succ_self row).two_dvd
  unfold tri
  linarith

theorem tri_inj {n a b c d : ℤ} (_ : 0 ≤ a) (h2 : a ≤ b) (h3 : b < n) (h4 : 0 ≤ c) (h5 : c ≤ d) (h6 : d < n)
    (e : tri n a b = tri n c d) : a = c ∧ b = d := by
  have e2 : 2 * tri n a b = 2 * tri n c d := by rw [e]
  rw [tri_two, tri_two] at e2
  have : a = c := by
    rcases lt_trichotomy a c with q | q | q
    · nlinarith [mul_nonneg (show 0 ≤ c - a - 1 by omega) (show 0 ≤ n - 1 - c by omega), mul_nonneg (show 0 ≤ c - a - 1 by omega) (show 0 ≤ c - a by omega)]
    · exact q
    · nlinarith [mul_nonneg (show 0 ≤ a - c - 1 by omega) (show 0 ≤ n - 1 - a by omega), mul_nonneg (show 0 ≤ a - c - 1 by omega) (show 0 ≤ a - c by omega)]
  subst this
  exact ⟨rfl, by linarith⟩

theorem tri_range {n a b : ℤ} (h1 : 0 ≤ a) (h2 : a ≤ b) (h3 : b < n) : 0 ≤ tri n a b ∧ 2 * tri n a b < n * (n + 1) := by
  have := tri_two n a b
  constructor
  · nlinarith
  · nlinarith [mul_nonneg (show 0 ≤ n - 1 - a by omega) (show 0 ≤ n - 1 - a by omega)]

theorem tri_surj {n : ℤ} (hn : 0 < n) (k : ℕ) : 2 * (k : ℤ) < n * (n + 1) →
    ∃ a b, 0 ≤ a ∧ a ≤ b ∧ b < n ∧ tri n a b = k := by
  induction k with
  | zero => intro _; exact ⟨0, 0, le_refl _, le_refl _, hn, by simp [tri]⟩
  | succ k ih =>
    intro hk
    push_cast at hk
    obtain ⟨a, b, h1, h2, h3, e⟩ := ih (by linarith)
    have e2 := tri_two n a b
    by_cases c : b + 1 < n
    · refine ⟨a, b + 1, h1, by omega, c, ?_⟩
      have := tri_two n a (b + 1)
      push_cast
      linarith
    · have hb : b = n - 1 := by omega
      by_cases c' : a + 1 < n
      · refine ⟨a + 1, a + 1, by omega, le_refl _, c', ?_⟩
        have := tri_two n (a + 1) (a + 1)
        push_cast
        nlinarith
      · have ha : a = n - 1 := by omega
        rw [e, ha, hb] at e2
        nlinarith

theorem packed_eq {β : Q} {bins : ℕ} {vol : ℤ} (hβ : 0 < β) (hb : 0 < bins) 
    (hf : ((bins : ℤ) * vol) * ((bins : ℤ) * vol) < 4294967296) {r1 r2 : ℤ} {t1 t2 : Q} {b1 b2 : ℤ}
    (h1 : 0 ≤ r1 ∧ r1 < vol) (h2 : 0 ≤ r2 ∧ r2 < vol) (k1 : InBin β bins t1 b1) (k2 : InBin β bins t2 b2) :
    packedIndex β bins vol r1 r2 t1 t2 =
      (tri ((bins : ℤ) * vol) (min (r1 * bins + b1) (r2 * bins + b2)) (max (r1 * bins + b1) (r2 * bins + b2)),
        if r1 * bins + b1 = r2 * bins + b2 then 1 else 2, decide (r1 * bins + b1 > r2 * bins + b2)) := by
  have hb' : (0 : ℤ) < (bins : ℤ) := by omega
  have hp : ∀ {r b : ℤ}, 0 ≤ r ∧ r < vol → 0 ≤ b ∧ b < (bins : ℤ) → 0 ≤ r * bins + b ∧ r * bins + b < (bins : ℤ) * vol := by
    intro r b q q'
    constructor <;> nlinarith
  obtain ⟨p1, p2⟩ := hp h1 ⟨k1.1, k1.2.1⟩
  obtain ⟨q1, q2⟩ := hp h2 ⟨k2.1, k2.2.1⟩
  unfold packedIndex
  simp only [bin_of_fold hβ hb k1, bin_of_fold hβ hb k2]
  generalize hn : (bins : ℤ) * vol = n at *
  generalize r1 * (bins : ℤ) + b1 = p at *
  generalize r2 * (bins : ℤ) + b2 = q at *
  have hnn : n ≤ n * n := by nlinarith
  rw [u32_of p1 (by omega), u32_of q1 (by omega)]
  have key : ∀ {a b : ℤ}, 0 ≤ a → a ≤ b → b < n →
      u32 (u32 (n * a + b) - (u32 (a * (a + 1))) / 2) = tri n a b := by
    intro a b a0 ab bn
    have m1 : 0 ≤ n * a := by nlinarith
    have m2 : n * a + b < n * n := by nlinarith
    have m3 : 0 ≤ a * (a + 1) := by nlinarith
    have m4 : a * (a + 1) < n * n := by nlinarith
    rw [u32_of (x := n * a + b) (by omega) (by omega), u32_of m3 (by omega)]
    have := (tri_range a0 ab bn).1
    have h' : tri n a b ≤ n * a + b := by
      unfold tri
      have : 0 ≤ a * (a + 1) / 2 := Int.ediv_nonneg m3 (by norm_num)
      omega
    exact u32_of this (by unfold tri at h'; omega)
  by_cases c : p > q
  · have e1 : min p q = q := min_eq_right c.le
    have e2 : max p q = p := max_eq_left c.le
    simp only [c, if_true, e1, e2, key q1 c.le p2]
    rw [if_neg (by omega), if_neg (by omega)]
  · have c' : p ≤ q := by omega
    have e1 : min p q = p := min_eq_left c'
    have e2 : max p q = q := max_eq_right c'
    simp only [c, if_false, e1, e2, key p1 c' q2]

/-! ### Composite interaction -/

theorem vecAt_ok {l : List ℤ} {i : ℤ} (h0 : 0 ≤ i) (h1 : i < l.length) : ∃ x ∈ l, vecAt l i = .ok x := by
  unfold vecAt
  have : i.toNat < l.length := by omega
  refine ⟨l[i.toNat], List.getElem_mem _, ?_⟩
  rw [if_pos h0, List.getElem?_eq_getElem this]


section
variable [StarRing F] {g : GammaW Q F} (h : g.Wf)
include h

theorem gammaW_coord {a b u : Site} (ha : InLat g.lat a.vec) (hb : InLat g.lat b.vec) (hu : InLat g.lat u.vec) :
    0 ≤ coordiIndex g.lat b.vec u.vec * latVol g.lat + coordiIndex g.lat a.vec u.vec ∧
    coordiIndex g.lat b.vec u.vec * latVol g.lat + coordiIndex g.lat a.vec u.vec < latVol g.lat * latVol g.lat := by
  have k1 := (index_round_trip h.lat).1 _ (shift_inLat hu hb)
  have k2 := (index_round_trip h.lat).1 _ (shift_inLat hu ha)
  have hp := latVol_pos h.lat.2
  unfold coordiIndex
  constructor <;> nlinarith [k1.1, k1.2.1, k2.1, k2.2.1]

/-- All reads of the index tables succeed. -/
theorem gammaW_reads {a b u : Site} {t1 t2 : Q} {b1 b2 : ℤ} (ha : InLat g.lat a.vec) (hb : InLat g.lat b.vec)
    (hu : InLat g.lat u.vec) (k1 : InBin g.beta g.bins t1 b1) (k2 : InBin g.beta g.bins t2 b2) :
    ∃ i j c e f, vecAt g.rSqueeze (coordiIndex g.lat b.vec u.vec * latVol g.lat + coordiIndex g.lat a.vec u.vec) = .ok i ∧
      vecAt g.tauSqueeze (b1 * g.bins + b2) = .ok j ∧
      vecAt g.rSymFactor (coordiIndex g.lat b.vec u.vec * latVol g.lat + coordiIndex g.lat a.vec u.vec) = .ok c ∧
      vecAt g.tauSymFactor (b1 * g.bins + b2) = .ok e ∧ vecAt g.tauFlag (b1 * g.bins + b2) = .ok f ∧
      (c : F) ≠ 0 ∧ (e : F) ≠ 0 ∧ 0 ≤ i * g.tauSize + j ∧ i * g.tauSize + j < g.rSize * g.tauSize := by
  obtain ⟨c0, c1⟩ := gammaW_coord h ha hb hu
  have hbins : (0 : ℤ) < (g.bins : ℤ) := by have := h.bins; omega
  have d0 : 0 ≤ b1 * g.bins + b2 := by have := k1.1; have := k2.1; positivity
  have d1 : b1 * g.bins + b2 < ((g.bins * g.bins : ℕ) : ℤ) := by
    push_cast
    nlinarith [k1.2.1, k2.2.1]
  obtain ⟨i, mi, ei⟩ := vecAt_ok c0 (by rw [h.rSqueeze]; exact c1)
  obtain ⟨j, mj, ej⟩ := vecAt_ok (l := g.tauSqueeze) d0 (by rw [h.tauSqueeze]; exact d1)
  obtain ⟨c, mc, ec⟩ := vecAt_ok c0 (by rw [h.rSym]; exact c1)
  obtain ⟨e, me, ee⟩ := vecAt_ok (l := g.tauSymFactor) d0 (by rw [h.tauSym]; exact d1)
  obtain ⟨f, mf, ef⟩ := vecAt_ok (l := g.tauFlag) d0 (by rw [h.tauFlag]; exact d1)
  have ri := h.rVal i mi
  have rj := h.tauVal j mj
  refine ⟨i, j, c, e, f, ei, ej, ec, ee, ef, h.rSymVal c mc, h.tauSymVal e me, ?_, ?_⟩ <;> nlinarith

end

/-- The cell of a spin channel. -/
def channelCell (g : GammaW Q F) (sp i : ℤ) : ℤ := if sp ≥ 4 then i + g.rSize * g.tauSize else i

theorem channelCell_eq {g : GammaW Q F} (h : g.Wf) (sp : ℤ) {i : ℤ} (h0 : 0 ≤ i) (h1 : i < g.rSize * g.tauSize) :
    (if sp ≥ 4 then u32 (u32 i + g.rSize * g.tauSize) else u32 i) = channelCell g sp i ∧
    0 ≤ channelCell g sp i ∧ channelCell g sp i < 2 * g.rSize * g.tauSize := by
  have hf := h.fits
  rw [mul_assoc] at hf ⊢
  unfold channelCell
  split_ifs
  · rw [u32_of h0 (by omega), u32_of (by omega) (by omega)]; omega
  · rw [u32_of h0 (by omega)]; omega

section
variable [StarRing F]

theorem gammaW_echo {g : GammaW Q F} (h : g.Wf) (hz : ∀ i, g.accu.data i = 0) {rin rout ur : Site} {tin tout ut : Q}
    (hi : InLat g.lat rin.vec) (ho : InLat g.lat rout.vec) (hu : InLat g.lat ur.vec)
    (a1 : -g.beta ≤ tout - ut) (a2 : tout - ut < g.beta) (a3 : -g.beta ≤ tin - ut) (a4 : tin - ut < g.beta) :
    ∃ c ∈ g.rSymFactor, ∃ e ∈ g.tauSymFactor, ((c * e : ℤ) : F) ≠ 0 ∧
      ∀ (sin sout : Dir → Spin) (w : F), g.echo rin rout ur tin tout ut sin sout w = .ok
        (if gammaSpinIndex sout sin < 4 then w / ((c * e : ℤ) : F)
          else if gammaSpinIndex sout sin < 6 then -(star w) / (2 * ((c * e : ℤ) : F)) else 0) := by
  obtain ⟨b1, k1⟩ := exists_bin h.beta h.bins a1 a2
  obtain ⟨b2, k2⟩ := exists_bin h.beta h.bins a3 a4
  obtain ⟨i, j, c, e, f, ei, ej, ec, ee, ef, hc, he, i0, i1⟩ := gammaW_reads h hi ho hu k1 k2
  have mem : ∀ {l : List ℤ} {n x : ℤ}, vecAt l n = .ok x → x ∈ l := by
    intro l n x q
    unfold vecAt at q
    split_ifs at q
    cases hl : l[n.toNat]? with
    | none => rw [hl] at q; cases q
    | some y => rw [hl] at q; cases q; exact List.mem_of_getElem? hl
  have hS : ((c * e : ℤ) : F) ≠ 0 := by push_cast; exact mul_ne_zero hc he
  refine ⟨c, mem ec, e, mem ee, hS, fun sin sout w => ?_⟩
  obtain ⟨q1, q2, q3⟩ := channelCell_eq h (gammaSpinIndex sout sin) i0 i1
  have hadd : ∀ x, g.accu.add (channelCell g (gammaSpinIndex sout sin) (i * g.tauSize + j)) x =
      .ok (g.accu.plus (channelCell g (gammaSpinIndex sout sin) (i * g.tauSize + j)) x) := by
    intro x
    unfold Arr.add Arr.plus
    rw [if_pos ⟨q2, by rw [h.accu]; exact q3⟩]
    congr 2
    funext n
    simp only [Function.update_apply]
    split_ifs with q
    · rw [q]
    · rfl
  have hat : ∀ x, (g.accu.plus (channelCell g (gammaSpinIndex sout sin) (i * g.tauSize + j)) x).at
      (channelCell g (gammaSpinIndex sout sin) (i * g.tauSize + j)) = .ok x := by
    intro x
    unfold Arr.at Arr.plus
    simp only
    rw [if_pos ⟨q2, by rw [h.accu]; exact q3⟩]
    simp [hz]
  have hat0 : g.accu.at (channelCell g (gammaSpinIndex sout sin) (i * g.tauSize + j)) = .ok 0 := by
    unfold Arr.at
    rw [if_pos ⟨q2, by rw [h.accu]; exact q3⟩, hz]
  have hm : ∀ {g'}, g.measure rin rout ur tin tout ut sin sout w = .ok g' → ∀ {x}, g'.accu.at (channelCell g (gammaSpinIndex sout sin)
      (i * g.tauSize + j)) = .ok x → g' = { g with accu := g'.accu } →
      g.echo rin rout ur tin tout ut sin sout w = .ok (
        let w := if f ≠ 0 then -(star x) else x
        let sp := gammaSpinIndex sout sin
        if sp = 0 ∨ sp = 1 then w else if sp = 2 ∨ sp = 3 then -w else if sp = 4 then -(star w) else w) := by
    intro g' hg' x hx hg
    unfold GammaW.echo
    rw [hg']
    simp only [Res.ok_bind]
    rw [hg]
    unfold GammaW.eval
    simp only [bin_of_fold h.beta h.bins k1, bin_of_fold h.beta h.bins k2, ei, ej, ef, Res.ok_bind, q1, hx]
  have hmeas : g.measure rin rout ur tin tout ut sin sout w = (
      let w' := if f ≠ 0 then -(star (w / ((c * e : ℤ) : F))) else w / ((c * e : ℤ) : F)
      let sp := gammaSpinIndex sout sin
      if sp = 0 ∨ sp = 1 then .ok { g with accu := g.accu.plus (channelCell g sp (i * g.tauSize + j)) w' }
      else if sp = 2 ∨ sp = 3 then .ok { g with accu := g.accu.plus (channelCell g sp (i * g.tauSize + j)) (-w') }
      else if sp = 4 then .ok { g with accu := g.accu.plus (channelCell g sp (i * g.tauSize + j)) (w' / 2) }
      else if sp = 5 then .ok { g with accu := g.accu.plus (channelCell g sp (i * g.tauSize + j)) (-(star w') / 2) }
      else .ok g) := by
    unfold GammaW.measure
    simp only [bin_of_fold h.beta h.bins k1, bin_of_fold h.beta h.bins k2, ei, ej, ec, ee, ef, Res.ok_bind, q1, hadd]
  have hst : star ((c * e : ℤ) : F) = ((c * e : ℤ) : F) := star_intCast _
  have hst2 : star (2 : F) = 2 := star_ofNat 2
  set sp := gammaSpinIndex sout sin with hsp
  have hcase : sp = 0 ∨ sp = 1 ∨ sp = 2 ∨ sp = 3 ∨ sp = 4 ∨ sp = 5 ∨ sp = 4294967295 := by
    rw [hsp]; unfold gammaSpinIndex; split_ifs <;> simp
  simp only at hmeas
  generalize hT : ((c * e : ℤ) : F) = S at *
  have hd : ∀ x : F, star (x / S) = star x / S := by intro x; rw [star_div₀, hst]
  have hd2 : ∀ x : F, star (x / 2) = star x / 2 := by intro x; rw [star_div₀, hst2]
  have hsm : ∀ x : F, -star x / S / 2 = -star x / (2 * S) := by intro x; rw [div_div, mul_comm S 2]
  rcases hcase with r | r | r | r | r | r | r <;> rw [r] at hmeas hat hm hat0 ⊢ <;>
    norm_num at hmeas
  · rw [hm hmeas (hat _) rfl]; simp; split_ifs <;> simp
  · rw [hm hmeas (hat _) rfl]; simp; split_ifs <;> simp
  · rw [hm hmeas (hat _) rfl]; simp; split_ifs <;> simp
  · rw [hm hmeas (hat _) rfl]; simp; split_ifs <;> simp
  · rw [hm hmeas (hat _) rfl]; simp; split_ifs <;> simp [hst, ← hsm, neg_div]
  · rw [hm hmeas (hat _) rfl]; simp; split_ifs <;> simp [hst, ← hsm, neg_div]
  · rw [hm hmeas hat0 rfl]; simp

end
end
end Feyn
