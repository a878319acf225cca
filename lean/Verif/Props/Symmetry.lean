import Verif.Proof.Symmetry
import Verif.Proof.Weights
import Verif.Props.Tables
import Mathlib.Tactic.IntervalCases

/-!
# Symmetry tables of the three-point functions (C73)
-/

namespace Feyn

set_option linter.unusedSectionVars false

/-! ### Times -/

theorem tau_at {n : ℕ} {t1 t2 : ℤ} (h0 : 0 ≤ t1) (h1 : t1 ≤ t2) (h2 : t2 < n) : ∃ i : ℕ, (tauPairs n)[i]? = some (t1, t2) :=
  List.mem_iff_getElem?.1 (mem_tauPairs.2 ⟨h0, h1, h2⟩)

theorem tau_some {n : ℕ} {t1 t2 : ℤ} (a0 : 0 ≤ t1) (a1 : t1 < n) (b0 : 0 ≤ t2) (b1 : t2 < n) :
    ∃ i : ℕ, (tauPairs n)[i]? = some (min t1 t2, max t1 t2) ∧ (pyTauTabs n).squeeze t1 t2 = i := by
  rcases le_total t1 t2 with c | c
  · obtain ⟨i, hi⟩ := tau_at a0 c b1
    exact ⟨i, by rw [min_eq_left c, max_eq_right c]; exact hi, ((tauInv n).at_ i _ hi).1⟩
  · obtain ⟨i, hi⟩ := tau_at b0 c a1
    exact ⟨i, by rw [min_eq_right c, max_eq_left c]; exact hi, ((tauInv n).at_ i _ hi).2.1⟩

theorem pairs_inj {n i j : ℕ} {p : ℤ × ℤ} (hi : (tauPairs n)[i]? = some p) (hj : (tauPairs n)[j]? = some p) : i = j := by
  obtain ⟨w, e⟩ := List.getElem?_eq_some_iff.1 hi
  obtain ⟨w', e'⟩ := List.getElem?_eq_some_iff.1 hj
  exact (List.Nodup.getElem_inj_iff (nodup_tauPairs n)).1 (e.trans e'.symm)

/-- **C73**, times: two pairs of time bins have the same number exactly if they are equal up to the order, the numbers address the compressed array, and the list of pairs restores
them. -/
theorem C73_times (n : ℕ) {t1 t2 : ℤ} (a0 : 0 ≤ t1) (a1 : t1 < n) (b0 : 0 ≤ t2) (b1 : t2 < n) :
    (∀ u1 u2 : ℤ, 0 ≤ u1 → u1 < n → 0 ≤ u2 → u2 < n →
      ((pyTauTabs n).squeeze t1 t2 = (pyTauTabs n).squeeze u1 u2 ↔ (u1 = t1 ∧ u2 = t2) ∨ (u1 = t2 ∧ u2 = t1))) ∧
    0 ≤ (pyTauTabs n).squeeze t1 t2 ∧ (pyTauTabs n).squeeze t1 t2 < (pyTauTabs n).restore.length ∧
    (pyTauTabs n).restore[((pyTauTabs n).squeeze t1 t2).toNat]? = some (min t1 t2, max t1 t2) := by
  obtain ⟨i, hi, ei⟩ := tau_some a0 a1 b0 b1
  refine ⟨?_, by omega, ?_, ?_⟩
  · intro u1 u2 c0 c1 d0 d1
    obtain ⟨j, hj, ej⟩ := tau_some c0 c1 d0 d1
    rw [ei, ej]
    constructor
    · intro e
      have : i = j := by exact_mod_cast e
      subst this
      rw [hi] at hj
      simp only [Option.some.injEq, Prod.mk.injEq] at hj
      rcases le_total t1 t2 with c | c <;> rcases le_total u1 u2 with d | d <;>
        simp only [min_eq_left, max_eq_right, min_eq_right, max_eq_left, c, d] at hj <;> omega
    · intro e
      have : (min t1 t2, max t1 t2) = (min u1 u2, max u1 u2) := by
        rcases e with ⟨rfl, rfl⟩ | ⟨rfl, rfl⟩
        · rfl
        · rw [min_comm, max_comm]
      rw [← this] at hj
      exact_mod_cast pairs_inj hi hj
  · rw [ei, (tauInv n).restore]
    exact_mod_cast (List.getElem?_eq_some_iff.1 hi).1
  · rw [ei, (tauInv n).restore]
    exact hi

/-- **C73**, times, for at most 257 bins: the factor is the number of pairs with this number, and pairs in reversed order are marked. Missing: more bins, for which this is false. -/
theorem C73_time_factors_partial {n : ℕ} (hn : n ≤ 257) {t1 t2 : ℤ} (a0 : 0 ≤ t1) (a1 : t1 < n) (b0 : 0 ≤ t2) (b1 : t2 < n) :
    (pyTauTabs n).sym t1 t2 = (if t1 = t2 then 1 else 2) ∧ (pyTauTabs n).flag t1 t2 = (if t2 < t1 then 1 else 0) := by
  have is : ∀ a b : ℤ, 0 ≤ a → a < n → (pyIs a b = true ↔ a = b) := by
    intro a b h0 h1
    simp only [pyIs, Bool.and_eq_true, decide_eq_true_eq]
    constructor
    · exact fun h => h.1
    · exact fun h => ⟨h, by omega, by omega⟩
  rcases lt_trichotomy t1 t2 with c | c | c
  · obtain ⟨i, hi⟩ := tau_at a0 c.le b1
    obtain ⟨_, _, k3, _, k5, _⟩ := (tauInv n).at_ i _ hi
    simp only [is t1 t2 a0 a1] at k3 k5
    rw [k3, k5 c.ne, if_neg (not_lt.2 c.le)]
    exact ⟨rfl, rfl⟩
  · subst c
    obtain ⟨i, hi⟩ := tau_at a0 le_rfl b1
    obtain ⟨_, _, k3, _, _, k6⟩ := (tauInv n).at_ i _ hi
    simp only [is t1 t1 a0 a1] at k3 k6
    rw [k3, k6]
    simp
  · obtain ⟨i, hi⟩ := tau_at b0 c.le a1
    obtain ⟨_, _, _, k4, _, k6⟩ := (tauInv n).at_ i _ hi
    simp only [is t2 t1 b0 b1] at k4 k6
    rw [k4, k6, if_neg c.ne, if_neg c.ne, if_neg c.ne', if_pos c]
    exact ⟨rfl, rfl⟩

/-- **C73 is violated** with more than 257 time bins: integers above 256 are compared with `is`, so equal times count as two pairs and are marked as reversed. -/
theorem C73_refuted_is {n : ℕ} {t : ℤ} (h0 : 256 < t) (h1 : t < n) : (pyTauTabs n).sym t t = 2 ∧ (pyTauTabs n).flag t t = 1 := by
  obtain ⟨i, hi⟩ := tau_at (n := n) (t1 := t) (by omega) le_rfl h1
  obtain ⟨_, _, k3, _, _, k6⟩ := (tauInv n).at_ i _ hi
  have : pyIs t t = false := by
    simp only [pyIs, decide_true, Bool.true_and, Bool.and_eq_false_iff, decide_eq_false_iff_not]
    omega
  simp only [this] at k3 k6
  exact ⟨k3, k6⟩

/-! ### Pairs of sites -/

section
variable {sym : List String} {lx ly : ℕ}

/-- **C73**, sites: two pairs of sites have the same number exactly if they are images of each other, the factor is the number of pairs with this number, the numbers address the
compressed array, every number is used, and the list restores a pair with this number. Missing: triangular lattices that are not square, for which this is false. -/
theorem C73_sites_partial (hs : Proper sym lx ly) : ∃ R, pyRTabs sym lx ly = some R ∧
    (∀ p : Quad, p.In lx ly → (∀ q : Quad, q.In lx ly → (p.look ly R.squeeze = q.look ly R.squeeze ↔ Mirrored sym lx ly p q)) ∧
      0 ≤ p.look ly R.squeeze ∧ p.look ly R.squeeze < R.restore.length ∧
      p.look ly R.sym = ((siteList lx ly).filter fun q => Mirrored sym lx ly p q).length) ∧
    (∀ i : ℕ, i < R.restore.length → ∃ p : Quad, p.In lx ly ∧ p.look ly R.squeeze = i ∧ R.restore[i]? = some (siteNum ly p.x1 p.y1, siteNum ly p.x2 p.y2)) := by
  obtain ⟨R, reps, e, h⟩ := rInv hs
  have seen : ∀ q : Quad, q.In lx ly → q ∈ R.points := fun q hq => (h.points q).2 ⟨q, mem_siteList.2 hq, .refl hq⟩
  have isIn : ∀ q ∈ R.points, q.In lx ly := by
    intro q hq
    obtain ⟨u, _, k⟩ := (h.points q).1 hq
    exact k.right hs
  have len : R.restore.length = reps.length := by rw [h.restore, List.length_map]
  refine ⟨R, e, ?_, ?_⟩
  · intro p hp
    obtain ⟨i, a, k1, k2, k3, k4⟩ := h.at_ p (seen p hp)
    have ha := isIn a (h.seen a (List.mem_of_getElem? k1))
    refine ⟨?_, by omega, ?_, ?_⟩
    · intro q hq
      obtain ⟨j, b, m1, m2, m3, _⟩ := h.at_ q (seen q hq)
      have hb := isIn b (h.seen b (List.mem_of_getElem? m1))
      rw [k3, m3]
      constructor
      · intro w
        have : i = j := by exact_mod_cast w
        subst this
        rw [k1] at m1
        cases m1
        exact (k2.symm hs ha).trans hs m2
      · intro w
        exact_mod_cast h.apart i j a b k1 m1 ((k2.trans hs w).trans hs (m2.symm hs hb))
    · rw [k3, len]
      exact_mod_cast (List.getElem?_eq_some_iff.1 k1).1
    · rw [k4]
      congr 1
      have nd : (siteList lx ly).Nodup := nodup_siteList lx ly
      refine List.Perm.length_eq ((List.perm_ext_iff_of_nodup (mirror_nodup p) (nd.filter _)).2 fun q => ?_)
      rw [mem_mirror hs hp, List.mem_filter, mem_siteList]
      simp only [decide_eq_true_eq]
      exact ⟨fun w => ⟨w.right hs, w⟩, fun w => w.2⟩
  · intro i hi
    have hi' : i < reps.length := by omega
    have g : reps[i]? = some reps[i] := List.getElem?_eq_getElem hi'
    have mp := h.seen _ (List.mem_of_getElem? g)
    have hp := isIn _ mp
    obtain ⟨j, b, m1, m2, m3, _⟩ := h.at_ _ mp
    have hb := isIn b (h.seen b (List.mem_of_getElem? m1))
    refine ⟨reps[i], hp, ?_, ?_⟩
    · rw [m3, h.apart j i b _ m1 g m2]
    · rw [h.restore, List.getElem?_map, g]
      simp [cell_eq]

/-- A lattice with three times two sites, as an example of two pairs that are images of each other. -/
example : Proper ["SU2", "Square"] 3 2 ∧ Mirrored ["SU2", "Square"] 3 2 ⟨1, 0, 2, 1⟩ ⟨2, 0, 1, 1⟩ ∧ ¬Mirrored ["SU2", "Square"] 3 2 ⟨1, 0, 2, 1⟩ ⟨2, 1, 1, 0⟩ := by
  refine ⟨⟨by decide, by decide, by decide⟩, by decide, by decide⟩

/-- **C73 is violated** on a triangular lattice that is not square: with 3 times 2 sites, pairs are given the factor 4 although only two pairs have their number; with 1 times 4 sites the
tables are not made. -/
theorem C73_refuted_triangular :
    ((pyRTabs ["Triangular"] 3 2).map fun R => ((⟨1, 0, 1, 1⟩ : Quad).look 2 R.sym, ((siteList 3 2).filter fun q => q.look 2 R.squeeze = (⟨1, 0, 1, 1⟩ : Quad).look 2 R.squeeze).length)) =
      some (4, 2) ∧
    (pyRTabs ["Triangular"] 1 4).isNone := by decide +kernel

end

/-! ### Compression -/

theorem fold_pick {α V : Type} (P : α → Prop) [DecidablePred P] (v : α → V) : ∀ (l : List α) (c : V),
    (∀ a ∈ l, P a → (∀ b ∈ l, P b → b = a) → l.foldl (fun c p => if P p then v p else c) c = v a) ∧
    ((∀ a ∈ l, ¬P a) → l.foldl (fun c p => if P p then v p else c) c = c) := by
  intro l
  induction l with
  | nil => simp
  | cons p l ih =>
    intro c
    constructor
    · intro a ha hP hu
      rw [List.foldl_cons]
      by_cases e : a ∈ l
      · exact (ih _).1 a e hP fun b hb => hu b (by simp [hb])
      · have : a = p := by
          rcases List.mem_cons.1 ha with q | q
          · exact q
          · exact absurd q e
        subst this
        rw [if_pos hP]
        refine (ih _).2 fun b hb hPb => ?_
        exact e (hu b (by simp [hb]) hPb ▸ hb)
    · intro h
      rw [List.foldl_cons, if_neg (h p (by simp))]
      exact (ih c).2 fun a ha => h a (by simp [ha])

theorem fold_at3 {α F : Type} (P : α → ℤ → Prop) [∀ a k, Decidable (P a k)] (v : α → ℤ → ℤ → ℤ → F) : ∀ (l : List α) (C : ℤ → ℤ → ℤ → ℤ → F) (s r1 r2 k : ℤ),
    (l.foldl (fun C p => fun s r1 r2 k => if P p k then v p s r1 r2 else C s r1 r2 k) C) s r1 r2 k = l.foldl (fun c p => if P p k then v p s r1 r2 else c) (C s r1 r2 k) := by
  intro l
  induction l with
  | nil => intros; rfl
  | cons p l ih =>
    intro C s r1 r2 k
    rw [List.foldl_cons, List.foldl_cons, ih]

theorem fold_at5 {α F : Type} (P : α → ℤ → ℤ → Prop) [∀ a k j, Decidable (P a k j)] (v : α → ℤ → ℤ → ℤ → F) : ∀ (l : List α) (C : Full F) (s r1 r2 t1 t2 : ℤ),
    (l.foldl (fun (C : Full F) p => fun s r1 r2 t1 t2 => if P p t1 t2 then v p s r1 r2 else C s r1 r2 t1 t2) C) s r1 r2 t1 t2 =
      l.foldl (fun c p => if P p t1 t2 then v p s r1 r2 else c) (C s r1 r2 t1 t2) := by
  intro l
  induction l with
  | nil => intros; rfl
  | cons p l ih =>
    intro C s r1 r2 t1 t2
    rw [List.foldl_cons, List.foldl_cons, ih]

theorem mem_lowerPairs {n : ℕ} {p : ℤ × ℤ} : p ∈ lowerPairs n ↔ 0 ≤ p.2 ∧ p.2 < p.1 ∧ p.1 < n := by
  obtain ⟨a, b⟩ := p
  simp only [lowerPairs, List.mem_flatMap, List.mem_range, List.mem_map, Prod.mk.injEq]
  constructor
  · rintro ⟨x, hx, y, hy, rfl, rfl⟩
    omega
  · rintro ⟨h1, h2, h3⟩
    exact ⟨a.toNat, by omega, b.toNat, by omega, by omega, by omega⟩

section
variable {F : Type}

/-- Elements of the compressed array. -/
theorem compress_at [Zero F] {R : RTabs} {n i : ℕ} {r : ℤ × ℤ} (hr : R.restore[i]? = some r) (Γ : Full F) (s : ℤ) {t1 t2 : ℤ} (h0 : 0 ≤ t1) (h1 : t1 ≤ t2) (h2 : t2 < n) :
    pyCompress (pyTauTabs n) R n Γ s i ((pyTauTabs n).squeeze t1 t2) = Γ s r.1 r.2 t1 t2 := by
  unfold pyCompress
  simp only [Int.natCast_nonneg, if_true, Int.toNat_natCast, hr]
  rw [fold_at3 (fun (p : ℤ × ℤ) k => k = (pyTauTabs n).squeeze p.1 p.2) (fun (p : ℤ × ℤ) s r1 r2 => Γ s r1 r2 p.1 p.2)]
  refine (fold_pick (fun p : ℤ × ℤ => (pyTauTabs n).squeeze t1 t2 = (pyTauTabs n).squeeze p.1 p.2) (fun p => Γ s r.1 r.2 p.1 p.2) _ _).1 (t1, t2) (mem_tauPairs.2 ⟨h0, h1, h2⟩) rfl ?_
  rintro ⟨a, b⟩ hb e
  obtain ⟨b0, b1, b2⟩ := mem_tauPairs.1 hb
  simp only at b0 b1 b2 e
  rcases ((C73_times n h0 (by omega) (by omega) h2).1 a b b0 (by omega) (by omega) b2).1 e with ⟨rfl, rfl⟩ | ⟨rfl, rfl⟩
  · rfl
  · simp only [Prod.mk.injEq]
    omega

variable [Ring F] [StarRing F]

/-- Elements of the restored array. -/
theorem uncompress_at (R : RTabs) (n : ℕ) (C : Compact F) (s r1 r2 : ℤ) {t1 t2 : ℤ} (a0 : 0 ≤ t1) (a1 : t1 < n) (b0 : 0 ≤ t2) (b1 : t2 < n) :
    pyUncompress (pyTauTabs n) R n C s r1 r2 t1 t2 = if t1 ≤ t2 then C s (R.squeeze r1 r2) ((pyTauTabs n).squeeze t1 t2)
      else -star (C s (R.squeeze r2 r1) ((pyTauTabs n).squeeze t1 t2)) := by
  unfold pyUncompress
  simp only
  rw [fold_at5 (fun (p : ℤ × ℤ) t1 t2 => t1 = p.1 ∧ t2 = p.2) (fun (p : ℤ × ℤ) s r1 r2 => C s (R.squeeze r1 r2) ((pyTauTabs n).squeeze p.1 p.2)),
    fold_at5 (fun (p : ℤ × ℤ) t1 t2 => t1 = p.1 ∧ t2 = p.2) (fun (p : ℤ × ℤ) s r1 r2 => -star (C s (R.squeeze r1 r2) ((pyTauTabs n).squeeze p.1 p.2)))]
  have uni : ∀ b : ℤ × ℤ, t1 = b.1 ∧ t2 = b.2 → b = (t1, t2) := by
    rintro ⟨a, b⟩ ⟨rfl, rfl⟩
    rfl
  by_cases c : t1 ≤ t2
  · rw [if_pos c]
    exact (fold_pick (fun p : ℤ × ℤ => t1 = p.1 ∧ t2 = p.2) (fun p => C s (R.squeeze r1 r2) ((pyTauTabs n).squeeze p.1 p.2)) _ _).1 (t1, t2) (mem_tauPairs.2 ⟨a0, c, b1⟩) ⟨rfl, rfl⟩
      fun b _ => uni b
  · rw [if_neg c]
    rw [(fold_pick (fun p : ℤ × ℤ => t1 = p.1 ∧ t2 = p.2) (fun p => C s (R.squeeze r1 r2) ((pyTauTabs n).squeeze p.1 p.2)) _ _).2 (by
      rintro ⟨a, b⟩ hb ⟨rfl, rfl⟩
      exact c (mem_tauPairs.1 hb).2.1)]
    exact (fold_pick (fun p : ℤ × ℤ => t1 = p.1 ∧ t2 = p.2) (fun p => -star (C s (R.squeeze r2 r1) ((pyTauTabs n).squeeze p.1 p.2))) _ _).1 (t1, t2)
      (mem_lowerPairs.2 ⟨b0, by simpa using c, a1⟩) ⟨rfl, rfl⟩ fun b _ => uni b

variable {sym : List String} {lx ly n : ℕ} {R : RTabs}

theorem Mirrored.swap {p q : Quad} (h : Mirrored sym lx ly p q) : Mirrored sym lx ly p.swap q.swap := by
  obtain ⟨g, hg, rfl⟩ := h
  exact ⟨g, hg, rfl⟩

/-- **C73**: a restored array has the symmetries of the lattice and of the exchange of both ends, and compressing it returns the compressed array. -/
theorem C73_uncompress (hs : Proper sym lx ly) (hR : pyRTabs sym lx ly = some R) (C : Compact F) :
    MirrorSym sym lx ly n (pyUncompress (pyTauTabs n) R n C) ∧ ExchangeSym lx ly n (pyUncompress (pyTauTabs n) R n C) ∧
    ∀ s i k : ℤ, 0 ≤ i → i < R.restore.length → 0 ≤ k → k < (pyTauTabs n).restore.length →
      pyCompress (pyTauTabs n) R n (pyUncompress (pyTauTabs n) R n C) s i k = C s i k := by
  obtain ⟨R', e, h1, h2⟩ := C73_sites_partial hs
  rw [hR] at e
  cases e
  refine ⟨?_, ?_, ?_⟩
  · intro s p q t1 t2 hp hq hm a0 a1 b0 b1
    unfold Quad.full
    rw [uncompress_at R n C s _ _ a0 a1 b0 b1, uncompress_at R n C s _ _ a0 a1 b0 b1]
    have e1 := ((h1 p hp).1 q hq).2 hm
    have e2 := ((h1 p.swap ⟨hp.2.2.1, hp.2.2.2, hp.1, hp.2.1⟩).1 q.swap ⟨hq.2.2.1, hq.2.2.2, hq.1, hq.2.1⟩).2 hm.swap
    simp only [Quad.look, Quad.swap] at e1 e2
    rw [e1, e2]
  · intro s q t1 t2 hq a0 a1 b0 b1 ne
    unfold Quad.full Quad.swap
    rw [uncompress_at R n C s _ _ a0 a1 b0 b1, uncompress_at R n C s _ _ b0 b1 a0 a1]
    have e := ((C73_times n a0 a1 b0 b1).1 t2 t1 b0 b1 a0 a1).2 (Or.inr ⟨rfl, rfl⟩)
    by_cases c : t1 ≤ t2
    · rw [if_pos c, if_neg (by omega), e]
      simp
    · rw [if_neg c, if_pos (by omega), e]
  · intro s i k i0 i1 k0 k1
    lift i to ℕ using i0
    lift k to ℕ using k0
    obtain ⟨p, hp, ep, er⟩ := h2 i (by exact_mod_cast i1)
    have inv := tauInv n
    rw [inv.restore] at k1
    have g : (tauPairs n)[k]? = some (tauPairs n)[k] := List.getElem?_eq_getElem (by exact_mod_cast k1)
    have sq := (inv.at_ k _ g).1
    obtain ⟨m0, m1, m2⟩ := mem_tauPairs.1 (List.mem_of_getElem? g)
    rw [← sq, compress_at er _ s m0 m1 m2, uncompress_at R n C s _ _ m0 (by omega) (by omega) m2, if_pos m1]
    simp only [Quad.look] at ep
    rw [ep]

/-- **C73**: an array with both symmetries is not changed by compressing and restoring it. -/
theorem C73_compress (hs : Proper sym lx ly) (hR : pyRTabs sym lx ly = some R) {Γ : Full F} (hm : MirrorSym sym lx ly n Γ) (hx : ExchangeSym lx ly n Γ) (s : ℤ) {q : Quad}
    (hq : q.In lx ly) {t1 t2 : ℤ} (a0 : 0 ≤ t1) (a1 : t1 < n) (b0 : 0 ≤ t2) (b1 : t2 < n) :
    q.full ly (pyUncompress (pyTauTabs n) R n (pyCompress (pyTauTabs n) R n Γ)) s t1 t2 = q.full ly Γ s t1 t2 := by
  obtain ⟨R', e, h1, h2⟩ := C73_sites_partial hs
  rw [hR] at e
  cases e
  have up : ∀ (q : Quad) (t1 t2 : ℤ), q.In lx ly → 0 ≤ t1 → t1 ≤ t2 → t2 < n →
      pyCompress (pyTauTabs n) R n Γ s (q.look ly R.squeeze) ((pyTauTabs n).squeeze t1 t2) = q.full ly Γ s t1 t2 := by
    intro q t1 t2 hq c0 c1 c2
    obtain ⟨k1, k2, k3, _⟩ := h1 q hq
    obtain ⟨p, hp, ep, er⟩ := h2 (q.look ly R.squeeze).toNat (by omega)
    have e : (((q.look ly R.squeeze).toNat : ℕ) : ℤ) = q.look ly R.squeeze := by omega
    rw [← e, compress_at er Γ s c0 c1 c2]
    exact (hm s q p t1 t2 hq hp ((k1 p hp).1 (by omega)) c0 (by omega) (by omega) c2).symm
  have hsw : q.swap.In lx ly := ⟨hq.2.2.1, hq.2.2.2, hq.1, hq.2.1⟩
  rw [Quad.full, uncompress_at R n _ s _ _ a0 a1 b0 b1]
  by_cases c : t1 ≤ t2
  · rw [if_pos c]
    exact up q t1 t2 hq a0 c b1
  · rw [if_neg c, hx s q t1 t2 hq a0 a1 b0 b1 (by omega), ← up q.swap t2 t1 hsw b0 (by omega) a1,
      ((C73_times n a0 a1 b0 b1).1 t2 t1 b0 b1 a0 a1).2 (Or.inr ⟨rfl, rfl⟩)]
    rfl

end

/-! ### Reading the tables -/

theorem flat_at (n : ℕ) (a : ℤ → ℤ → ℤ) {i j : ℕ} (hi : i < n) (hj : j < n) : (tabFlat n a)[i * n + j]? = some (a i j) := by
  have key : ∀ m : ℕ, ((List.range m).flatMap fun (i : ℕ) => (List.range n).map fun (j : ℕ) => a i j).length = m * n ∧
      ∀ i j : ℕ, i < m → j < n → ((List.range m).flatMap fun (i : ℕ) => (List.range n).map fun (j : ℕ) => a i j)[i * n + j]? = some (a i j) := by
    intro m
    induction m with
    | zero => simp
    | succ m ih =>
      rw [List.range_succ, List.flatMap_append]
      constructor
      · rw [List.length_append, ih.1]
        simp
        ring
      · intro i j hi hj
        by_cases c : i < m
        · rw [List.getElem?_append_left (by rw [ih.1]; nlinarith)]
          exact ih.2 i j c hj
        · have : i = m := by omega
          subst this
          rw [List.getElem?_append_right (by rw [ih.1]; omega), ih.1]
          simp [hj]
  exact (key n).2 i j hi hj

theorem flat_length (n : ℕ) (a : ℤ → ℤ → ℤ) : (tabFlat n a).length = n * n := by
  simp [tabFlat, List.length_flatMap]

theorem flat_mem {n : ℕ} {a : ℤ → ℤ → ℤ} {x : ℤ} (h : x ∈ tabFlat n a) : ∃ i j : ℕ, i < n ∧ j < n ∧ x = a i j := by
  simp only [tabFlat, List.mem_flatMap, List.mem_range, List.mem_map] at h
  obtain ⟨i, hi, j, hj, e⟩ := h
  exact ⟨i, j, hi, hj, e.symm⟩

theorem vecAt_flat {n : ℕ} (a : ℤ → ℤ → ℤ) {i j : ℤ} (i0 : 0 ≤ i) (i1 : i < n) (j0 : 0 ≤ j) (j1 : j < n) : vecAt (tabFlat n a) (i * n + j) = .ok (a i j) := by
  lift i to ℕ using i0
  lift j to ℕ using j0
  unfold vecAt
  have : (0 : ℤ) ≤ (i : ℤ) * n + j := by positivity
  rw [if_pos this]
  have e : ((i : ℤ) * n + j).toNat = i * n + j := by
    have : (i : ℤ) * n + j = ((i * n + j : ℕ) : ℤ) := by push_cast; ring
    omega
  rw [e, flat_at n a (by exact_mod_cast i1) (by exact_mod_cast j1)]

section
variable {Q F : Type} [Field Q] [LinearOrder Q] [IsStrictOrderedRing Q] [FloorRing Q] [Field F] {sym : List String} {lx ly n : ℕ} {R : RTabs} {g : GammaW Q F}

theorem site_split {lx ly r : ℕ} (h : r < lx * ly) : ∃ x y : ℤ, (0 ≤ x ∧ x < lx) ∧ (0 ≤ y ∧ y < ly) ∧ siteNum ly x y = r := by
  have hy : 0 < ly := by
    rcases Nat.eq_zero_or_pos ly with e | e
    · subst e
      simp at h
    · exact e
  refine ⟨((r / ly : ℕ) : ℤ), ((r % ly : ℕ) : ℤ), ⟨by positivity, ?_⟩, ⟨by positivity, ?_⟩, ?_⟩
  · exact_mod_cast Nat.div_lt_of_lt_mul (by rwa [mul_comm])
  · exact_mod_cast Nat.mod_lt _ hy
  · unfold siteNum
    have := Nat.div_add_mod' r ly
    exact_mod_cast this

/-- **C73**: a file in which one of the five tables does not have an entry for every pair of lattice vectors, or of times, is not accepted. -/
theorem C73_lengths (d : WWDict F) (hv : 0 ≤ latVol g.lat * latVol g.lat) (hv2 : latVol g.lat * latVol g.lat < 4294967296) (hb : 0 ≤ g.bins) (hb2 : g.bins * g.bins < 4294967296)
    (h : (d.rSqueeze.length : ℤ) ≠ latVol g.lat * latVol g.lat ∨ (d.rSymFactor.length : ℤ) ≠ latVol g.lat * latVol g.lat ∨ (d.tauSqueeze.length : ℤ) ≠ g.bins * g.bins ∨
      (d.tauSymFactor.length : ℤ) ≠ g.bins * g.bins ∨ (d.tauFlag.length : ℤ) ≠ g.bins * g.bins) : g.weightFromDict d = .abort := by
  have e1 : u32 (latVol g.lat * latVol g.lat) = latVol g.lat * latVol g.lat := by
    unfold u32
    omega
  have e2 : u32 (g.bins * g.bins) = g.bins * g.bins := by
    have := mul_nonneg hb hb
    unfold u32
    omega
  unfold GammaW.weightFromDict
  simp only [e1, e2]
  split
  · rfl
  split
  · rfl
  split
  · rfl
  split
  · rfl
  split
  · rfl
  · exfalso
    tauto

/-- **C73**: the tables of Python are accepted by the Monte Carlo program and make a usable composite interaction. -/
theorem C73_load [CharZero F] (hs : Proper sym lx ly) (hR : pyRTabs sym lx ly = some R) (hl : g.lat = [(lx : ℤ), (ly : ℤ)]) (hb : g.bins = n) (hβ : 0 < g.beta) (hn : 0 < n)
    (hv : lx * ly * (lx * ly) < 4294967296) (hn2 : n * n < 4294967296) (hf : 2 * R.restore.length * (pyTauTabs n).restore.length < 4294967296) (Γ : Option (Full F)) :
    ∃ g', g.weightFromDict (wwDict (lx * ly) n (pyTauTabs n) R Γ) = .ok g' ∧ g'.Wf ∧ g'.beta = g.beta ∧ g'.bins = n ∧ g'.lat = g.lat ∧ (∀ i, g'.accu.data i = 0) ∧
      g'.rSqueeze = tabFlat (lx * ly) R.squeeze ∧ g'.tauSqueeze = tabFlat n (pyTauTabs n).squeeze ∧ g'.tauFlag = tabFlat n (pyTauTabs n).flag ∧
      g'.rSize = R.restore.length ∧ g'.tauSize = (pyTauTabs n).restore.length ∧
      ∀ i, 0 ≤ i → i < g'.weight.n → g'.weight.data i = match Γ with
        | none => 0
        | some Γ => pyCompress (pyTauTabs n) R n Γ (i / (R.restore.length * (pyTauTabs n).restore.length)) (i / (pyTauTabs n).restore.length % R.restore.length)
            (i % (pyTauTabs n).restore.length) := by
  obtain ⟨R', e, h1, _⟩ := C73_sites_partial hs
  rw [hR] at e
  cases e
  have vol : latVol g.lat = ((lx * ly : ℕ) : ℤ) := by
    rw [hl]
    simp [latVol]
  have u1 : u32 (latVol g.lat * latVol g.lat) = ((lx * ly * (lx * ly) : ℕ) : ℤ) := by
    rw [vol, u32_of (by positivity) (by exact_mod_cast hv)]
    push_cast
    ring
  have u2 : u32 ((g.bins : ℤ) * g.bins) = ((n * n : ℕ) : ℤ) := by
    rw [hb, u32_of (by positivity) (by exact_mod_cast hn2)]
    push_cast
    ring
  have tsPos : 1 ≤ (pyTauTabs n).restore.length := by
    have := (C73_times n (t1 := 0) (t2 := 0) le_rfl (by exact_mod_cast hn) le_rfl (by exact_mod_cast hn)).2
    omega
  have u3 : u32 (u32 (2 * (R.restore.length : ℤ)) * ((pyTauTabs n).restore.length : ℤ)) = 2 * R.restore.length * (pyTauTabs n).restore.length := by
    have : 2 * R.restore.length * 1 ≤ 2 * R.restore.length * (pyTauTabs n).restore.length := Nat.mul_le_mul_left _ tsPos
    rw [u32_of (x := 2 * (R.restore.length : ℤ)) (by positivity) (by exact_mod_cast (by omega)), u32_of (by positivity) (by exact_mod_cast hf)]
  have hX : ∀ r1 r2 : ℕ, r1 < lx * ly → r2 < lx * ly → ∃ q : Quad, q.In lx ly ∧ siteNum ly q.x1 q.y1 = r1 ∧ siteNum ly q.x2 q.y2 = r2 := by
    intro r1 r2 k1 k2
    obtain ⟨x1, y1, a1, a2, a3⟩ := site_split k1
    obtain ⟨x2, y2, b1, b2, b3⟩ := site_split k2
    exact ⟨⟨x1, y1, x2, y2⟩, ⟨a1, a2, b1, b2⟩, a3, b3⟩
  have wfo : ∀ w : Arr F, w.n = 2 * R.restore.length * (pyTauTabs n).restore.length →
      GammaW.Wf { g with rSqueeze := tabFlat (lx * ly) R.squeeze, rSymFactor := tabFlat (lx * ly) R.sym, tauSqueeze := tabFlat n (pyTauTabs n).squeeze,
                         tauSymFactor := tabFlat n (pyTauTabs n).sym, tauFlag := tabFlat n (pyTauTabs n).flag, rSize := R.restore.length,
                         tauSize := (pyTauTabs n).restore.length, weight := w,
                         accu := ⟨2 * R.restore.length * (pyTauTabs n).restore.length, fun _ => 0⟩ } := by
    intro w hw
    refine ⟨hβ, by rw [hb]; exact hn, ?_, by rw [hl]; rfl, ?_, ?_, ?_, ?_, ?_, ?_, ?_, ?_, ?_, ?_, hw, ?_⟩
    · rw [hl]
      refine ⟨by simp, ?_⟩
      simp only [List.mem_cons, List.not_mem_nil, or_false, forall_eq_or_imp, forall_eq]
      exact ⟨by exact_mod_cast hs.1, by exact_mod_cast hs.2.1⟩
    · simp only [flat_length, vol]
      push_cast
      ring
    · simp only [flat_length, vol]
      push_cast
      ring
    · simp only [flat_length, hb]
    · simp only [flat_length, hb]
    · simp only [flat_length, hb]
    · intro x hx
      obtain ⟨r1, r2, k1, k2, rfl⟩ := flat_mem hx
      obtain ⟨q, hq, e1, e2⟩ := hX r1 r2 k1 k2
      have := h1 q hq
      simp only [Quad.look, e1, e2] at this
      exact ⟨this.2.1, this.2.2.1⟩
    · intro x hx
      obtain ⟨t1, t2, k1, k2, rfl⟩ := flat_mem hx
      have := (C73_times n (t1 := t1) (t2 := t2) (by omega) (by omega) (by omega) (by omega)).2
      exact ⟨this.1, this.2.1⟩
    · intro x hx
      obtain ⟨r1, r2, k1, k2, rfl⟩ := flat_mem hx
      obtain ⟨q, hq, e1, e2⟩ := hX r1 r2 k1 k2
      have := (h1 q hq).2.2.2
      simp only [Quad.look, e1, e2] at this
      rw [this]
      have pos : 0 < ((siteList lx ly).filter fun q' => Mirrored sym lx ly q q').length := by
        refine List.length_pos_of_mem (a := q) (List.mem_filter.2 ⟨mem_siteList.2 hq, ?_⟩)
        simpa using Mirrored.refl hq
      exact_mod_cast pos.ne'
    · intro x hx
      obtain ⟨t1, t2, k1, k2, rfl⟩ := flat_mem hx
      have : ∀ a b : ℤ, 0 ≤ a → a ≤ b → b < n → (((pyTauTabs n).sym a b : ℤ) : F) ≠ 0 ∧ (((pyTauTabs n).sym b a : ℤ) : F) ≠ 0 := by
        intro a b c0 c1 c2
        obtain ⟨i, hi⟩ := tau_at c0 c1 c2
        obtain ⟨_, _, m3, m4, _⟩ := (tauInv n).at_ i _ hi
        simp only at m3 m4
        rw [m3, m4]
        split_ifs <;> norm_num
      rcases le_total (t1 : ℤ) t2 with c | c
      · exact (this t1 t2 (by omega) c (by omega)).1
      · exact (this t2 t1 (by omega) c (by omega)).2
    · simp only
      exact_mod_cast hf
    · simp
  unfold GammaW.weightFromDict wwDict
  simp only [flat_length, u1, u2, u3, ne_eq, not_true_eq_false, if_false]
  cases Γ with
  | none =>
    simp only [Option.map_none, Res.ok_bind]
    exact ⟨_, rfl, wfo _ rfl, rfl, hb, rfl, fun _ => rfl, rfl, rfl, rfl, rfl, rfl, fun _ _ _ => rfl⟩
  | some Γ =>
    simp only [Option.map_some]
    rw [fromDict_ok (by rfl) (by rfl)]
    simp only [Res.ok_bind]
    refine ⟨_, rfl, wfo _ rfl, rfl, hb, rfl, fun _ => rfl, rfl, rfl, rfl, rfl, rfl, ?_⟩
    intro i i0 i1
    simp only at i1 ⊢
    rw [if_pos ⟨i0, i1⟩]

theorem pack_range {rs ts a b : ℤ} (a0 : 0 ≤ a) (a1 : a < rs) (b0 : 0 ≤ b) (b1 : b < ts) : 0 ≤ a * ts + b ∧ a * ts + b < rs * ts := by
  have h1 : 0 ≤ a * ts := mul_nonneg a0 (by omega)
  have h2 : (a + 1) * ts ≤ rs * ts := Int.mul_le_mul_of_nonneg_right (by omega) (by omega)
  rw [add_mul, one_mul] at h2
  exact ⟨by omega, by omega⟩

theorem pack_split {rs ts s a b : ℤ} (a0 : 0 ≤ a) (a1 : a < rs) (b0 : 0 ≤ b) (b1 : b < ts) :
    (s * (rs * ts) + (a * ts + b)) / (rs * ts) = s ∧ (s * (rs * ts) + (a * ts + b)) / ts % rs = a ∧ (s * (rs * ts) + (a * ts + b)) % ts = b := by
  have inner := pack_range a0 a1 b0 b1
  have hr : 0 < rs := by omega
  have ht : 0 < ts := by omega
  refine ⟨?_, ?_, ?_⟩
  · rw [add_comm, Int.add_mul_ediv_right _ _ (by positivity), Int.ediv_eq_zero_of_lt inner.1 inner.2, zero_add]
  · have : s * (rs * ts) + (a * ts + b) = b + (s * rs + a) * ts := by ring
    rw [this, Int.add_mul_ediv_right _ _ (by positivity), Int.ediv_eq_zero_of_lt b0 b1, zero_add, add_comm, mul_comm, Int.add_mul_emod_self_left, Int.emod_eq_of_lt a0 a1]
  · have : s * (rs * ts) + (a * ts + b) = b + ts * (s * rs + a) := by ring
    rw [this, Int.add_mul_emod_self_left, Int.emod_eq_of_lt b0 b1]

/-- **C73**: what the Monte Carlo program reads from a compressed array. If the time of the outgoing end is not later than that of the incoming end, counted from the external point,
these are the elements of the original array. Missing: otherwise the elements for exchanged sites are read (`C73_read_reversed`). -/
theorem C73_read_partial [CharZero F] [StarRing F] (hs : Proper sym lx ly) (hR : pyRTabs sym lx ly = some R) (hl : g.lat = [(lx : ℤ), (ly : ℤ)]) (hb : g.bins = n) (hβ : 0 < g.beta)
    (hn : 0 < n) (hn' : n ≤ 257) (hv : lx * ly * (lx * ly) < 4294967296) (hf : 2 * R.restore.length * (pyTauTabs n).restore.length < 4294967296) {Γ : Full F}
    (hm : MirrorSym sym lx ly n Γ) : ∃ g', g.weightFromDict (wwDict (lx * ly) n (pyTauTabs n) R (some Γ)) = .ok g' ∧
      ∀ {rin rout ur : Site} {tin tout ut : Q} {b1 b2 : ℤ}, InLat g.lat rin.vec → InLat g.lat rout.vec → InLat g.lat ur.vec →
        InBin g.beta n (tout - ut) b1 → InBin g.beta n (tin - ut) b2 → ∀ v : ℤ → F,
        (∀ s, v s = if b1 ≤ b2 then (relQuad lx ly rin rout ur).full ly Γ s b1 b2 else -star ((relQuad lx ly rin rout ur).full ly Γ s b2 b1)) →
        ∀ sin sout : Dir → Spin,
          (sin IN = sin OUT → sout IN = sout OUT → g'.eval rin rout ur tin tout ut sin sout = .ok (if sin IN = sout IN then v 0 else -v 0)) ∧
          (sin IN = DOWN → sin OUT = UP → sout IN = UP → sout OUT = DOWN → g'.eval rin rout ur tin tout ut sin sout = .ok (-star (v 1))) ∧
          (sin IN = UP → sin OUT = DOWN → sout IN = DOWN → sout OUT = UP → g'.eval rin rout ur tin tout ut sin sout = .ok (v 1)) := by
  obtain ⟨g', e, wf, p1, p2, p3, _, p4, p5, p6, p7, p8, p9⟩ := C73_load (g := g) hs hR hl hb hβ hn hv (by nlinarith) hf (some Γ)
  refine ⟨g', e, ?_⟩
  obtain ⟨R', e', h1, h2⟩ := C73_sites_partial hs
  rw [hR] at e'
  cases e'
  intro rin rout ur tin tout ut b1 b2 hi ho hu k1 k2 v hv' sin sout
  rw [← p3] at hi ho hu
  rw [← p1, ← p2] at k1 k2
  have lat : g'.lat = [(lx : ℤ), (ly : ℤ)] := p3.trans hl
  set q := relQuad lx ly rin rout ur with hq
  have hx' : (0 : ℤ) < lx := by exact_mod_cast hs.1
  have hy' : (0 : ℤ) < ly := by exact_mod_cast hs.2.1
  have qin : q.In lx ly :=
    ⟨⟨Int.emod_nonneg _ hx'.ne', Int.emod_lt_of_pos _ hx'⟩, ⟨Int.emod_nonneg _ hy'.ne', Int.emod_lt_of_pos _ hy'⟩,
      ⟨Int.emod_nonneg _ hx'.ne', Int.emod_lt_of_pos _ hx'⟩, ⟨Int.emod_nonneg _ hy'.ne', Int.emod_lt_of_pos _ hy'⟩⟩
  have c1 : coordiIndex g'.lat rout.vec ur.vec = siteNum ly q.x1 q.y1 := by
    rw [coordi_rel ho hu, lat]
    simp [relCoord, vec2Index, siteNum, hq, relQuad]
  have c2 : coordiIndex g'.lat rin.vec ur.vec = siteNum ly q.x2 q.y2 := by
    rw [coordi_rel hi hu, lat]
    simp [relCoord, vec2Index, siteNum, hq, relQuad]
  have vol : latVol g'.lat = ((lx * ly : ℕ) : ℤ) := by
    rw [lat]
    simp [latVol]
  have r1 := siteNum_range (lx := lx) (ly := ly) qin.1 qin.2.1
  have r2 := siteNum_range (lx := lx) (ly := ly) qin.2.2.1 qin.2.2.2
  have bb1 := k1.2.1
  have bb2 := k2.2.1
  rw [p2] at bb1 bb2
  have ei : vecAt g'.rSqueeze (coordiIndex g'.lat rout.vec ur.vec * latVol g'.lat + coordiIndex g'.lat rin.vec ur.vec) = .ok (q.look ly R.squeeze) := by
    rw [c1, c2, vol, p4]
    exact vecAt_flat _ r1.1 (by push_cast; exact r1.2) r2.1 (by push_cast; exact r2.2)
  have ej : vecAt g'.tauSqueeze (b1 * g'.bins + b2) = .ok ((pyTauTabs n).squeeze b1 b2) := by
    rw [p5, p2]
    exact vecAt_flat _ k1.1 bb1 k2.1 bb2
  have ef : vecAt g'.tauFlag (b1 * g'.bins + b2) = .ok (if b2 < b1 then 1 else 0) := by
    rw [p6, p2, vecAt_flat _ k1.1 bb1 k2.1 bb2, (C73_time_factors_partial hn' k1.1 bb1 k2.1 bb2).2]
  have hw : ∀ s t1 t2 : ℤ, 0 ≤ s → s < 2 → 0 ≤ t1 → t1 ≤ t2 → t2 < n →
      g'.weight.at (s * (g'.rSize * g'.tauSize) + (q.look ly R.squeeze * g'.tauSize + (pyTauTabs n).squeeze t1 t2)) = .ok (q.full ly Γ s t1 t2) := by
    intro s t1 t2 s0 s1 a0 a1 a2
    obtain ⟨m1, m2, m3, _⟩ := h1 q qin
    obtain ⟨_, n1, n2, _⟩ := C73_times n a0 (by omega) (by omega) a2
    have w := wf.weight
    rw [p7, p8] at w ⊢
    set rs : ℤ := (R.restore.length : ℤ)
    set ts : ℤ := ((pyTauTabs n).restore.length : ℤ)
    set a := q.look ly R.squeeze
    set b := (pyTauTabs n).squeeze t1 t2
    have inner := pack_range m2 m3 n1 n2
    obtain ⟨d1, d2, d3⟩ := pack_split (s := s) m2 m3 n1 n2
    have range : 0 ≤ s * (rs * ts) + (a * ts + b) ∧ s * (rs * ts) + (a * ts + b) < g'.weight.n := by
      rw [w, mul_assoc]
      exact pack_range s0 s1 inner.1 inner.2
    unfold Arr.at
    rw [if_pos range, p9 _ range.1 range.2]
    simp only [d1, d2, d3]
    obtain ⟨p, hp, ep, er⟩ := h2 a.toNat (by omega)
    have e : ((a.toNat : ℕ) : ℤ) = a := by omega
    rw [← e, compress_at er Γ s a0 a1 a2]
    congr 1
    exact (hm s q p t1 t2 qin hp ((m1 p hp).1 (by omega)) a0 (by omega) (by omega) a2).symm
  obtain ⟨m1, m2, m3, _⟩ := h1 q qin
  obtain ⟨n0, n1, n2, _⟩ := C73_times n k1.1 bb1 k2.1 bb2
  have i0 : 0 ≤ q.look ly R.squeeze * g'.tauSize + (pyTauTabs n).squeeze b1 b2 ∧ q.look ly R.squeeze * g'.tauSize + (pyTauTabs n).squeeze b1 b2 < g'.rSize * g'.tauSize := by
    rw [p7, p8]
    exact pack_range m2 m3 n1 n2
  have val : ∀ s : ℤ, 0 ≤ s → s < 2 → ∃ x, g'.weight.at (s * (g'.rSize * g'.tauSize) + (q.look ly R.squeeze * g'.tauSize + (pyTauTabs n).squeeze b1 b2)) = .ok x ∧
      (if (if b2 < b1 then (1 : ℤ) else 0) ≠ 0 then -star x else x) = v s := by
    intro s s0 s1
    rw [hv' s]
    by_cases c : b1 ≤ b2
    · refine ⟨_, hw s b1 b2 s0 s1 k1.1 c bb2, ?_⟩
      rw [if_neg (by omega : ¬b2 < b1), if_pos c]
      simp
    · refine ⟨q.full ly Γ s b2 b1, ?_, ?_⟩
      · rw [(n0 b2 b1 k2.1 bb2 k1.1 bb1).2 (Or.inr ⟨rfl, rfl⟩)]
        exact hw s b2 b1 s0 s1 k2.1 (by omega) bb1
      · rw [if_pos (by omega : b2 < b1), if_neg c]
        simp
  obtain ⟨x0, y0, z0⟩ := val 0 (by norm_num) (by norm_num)
  obtain ⟨x1, y1, z1⟩ := val 1 (by norm_num) (by norm_num)
  rw [zero_mul, zero_add] at y0
  rw [one_mul, add_comm] at y1
  have ev : ∀ sp : ℤ, gammaSpinIndex sout sin = sp → g'.eval rin rout ur tin tout ut sin sout = .ok (
      let w := if sp ≥ 4 then v 1 else v 0
      if sp = 0 ∨ sp = 1 then w else if sp = 2 ∨ sp = 3 then -w else if sp = 4 then -(star w) else w) := by
    intro sp hsp
    obtain ⟨q1, _, _⟩ := channelCell_eq wf sp i0.1 i0.2
    unfold GammaW.eval
    simp only [bin_of_fold wf.beta wf.bins k1, bin_of_fold wf.beta wf.bins k2, ei, ej, ef, Res.ok_bind, hsp, q1]
    unfold channelCell
    by_cases c : sp ≥ 4
    · simp only [c, if_true, y1, Res.ok_bind, z1]
    · simp only [c, if_false, y0, Res.ok_bind, z0]
  refine ⟨?_, ?_, ?_⟩
  · intro a b
    cases h3 : sin IN <;> cases h4 : sout IN
    · rw [ev 1 (by simp [gammaSpinIndex, ← a, ← b, h3, h4])]
      simp
    · rw [ev 2 (by simp [gammaSpinIndex, ← a, ← b, h3, h4])]
      simp
    · rw [ev 3 (by simp [gammaSpinIndex, ← a, ← b, h3, h4])]
      simp
    · rw [ev 0 (by simp [gammaSpinIndex, ← a, ← b, h3, h4])]
      simp
  · intro a b c d
    rw [ev 4 (by simp [gammaSpinIndex, a, b, c, d])]
    simp
  · intro a b c d
    rw [ev 5 (by simp [gammaSpinIndex, a, b, c, d])]
    simp

/-- The remaining elements are those for exchanged sites. -/
theorem C73_read_reversed [StarRing F] {Γ : Full F} (h : ExchangeSym lx ly n Γ) {q : Quad} (hq : q.In lx ly) (s : ℤ) {b1 b2 : ℤ} (h1 : 0 ≤ b2) (h2 : b2 < b1) (h3 : b1 < n) :
    -star (q.full ly Γ s b2 b1) = q.swap.full ly Γ s b1 b2 :=
  (h s q.swap b1 b2 ⟨hq.2.2.1, hq.2.2.2, hq.1, hq.2.1⟩ (by omega) h3 h1 (by omega) (by omega)).symm

end

/-- An array on a row of three sites with two time bins. -/
def demoGamma : Full ℚ := fun _ r1 r2 t1 t2 => if r1 = 0 ∧ r2 ≠ 0 ∧ t1 = 0 ∧ t2 = 1 then 1 else if r2 = 0 ∧ r1 ≠ 0 ∧ t1 = 1 ∧ t2 = 0 then -1 else 0

/-- The composite interaction of the Monte Carlo program before anything is loaded. -/
def demoW : GammaW ℚ ℚ where
  beta := 2
  bins := 2
  lat := [3, 1]
  rSqueeze := []
  rSymFactor := []
  tauSqueeze := []
  tauSymFactor := []
  tauFlag := []
  rSize := 0
  tauSize := 0
  weight := ⟨0, fun _ => 0⟩
  accu := ⟨0, fun _ => 0⟩
  normAccu := 0

theorem demoGamma_mirror : MirrorSym ["Square"] 3 1 2 demoGamma := by
  rintro s p q t1 t2 hp hq ⟨m, hm, rfl⟩ - - - -
  obtain ⟨a1, a2, a3, a4⟩ := hp
  simp only [mirrors] at hm
  have y1 : p.y1 = 0 := by omega
  have y2 : p.y2 = 0 := by omega
  have key : ∀ x : ℤ, 0 ≤ x → x < 3 → (x % 3 = 0 ↔ x = 0) ∧ ((-x) % 3 = 0 ↔ x = 0) := by intro x _ _; omega
  simp at hm
  rcases hm with rfl | rfl | rfl | rfl <;>
    simp [Quad.full, demoGamma, siteNum, Mat2.act, y1, y2, Int.emod_one, (key _ a1.1 (by exact_mod_cast a1.2)).1, (key _ a1.1 (by exact_mod_cast a1.2)).2,
      (key _ a3.1 (by exact_mod_cast a3.2)).1, (key _ a3.1 (by exact_mod_cast a3.2)).2]

theorem demoGamma_exchange : ExchangeSym 3 1 2 demoGamma := by
  intro s q t1 t2 hq h0 h1 h2 h3 hne
  have key : ∀ x y : ℤ, demoGamma s x y t1 t2 = -star (demoGamma s y x t2 t1) := by
    intro x y
    have : (t1 = 0 ∧ t2 = 1) ∨ (t1 = 1 ∧ t2 = 0) := by omega
    by_cases c : x = 0 <;> by_cases d : y = 0 <;> rcases this with ⟨rfl, rfl⟩ | ⟨rfl, rfl⟩ <;> simp [demoGamma, c, d]
  exact key _ _

/-- **C73**, refuted: for an array with all symmetries, the Monte Carlo program reads a number that differs from the element of the array. The element
for these sites and times is zero; the program finds the one for exchanged sites. -/
theorem C73_refuted_exchange : MirrorSym ["Square"] 3 1 2 demoGamma ∧ ExchangeSym 3 1 2 demoGamma ∧
    ∃ (R : RTabs) (g : GammaW ℚ ℚ), pyRTabs ["Square"] 3 1 = some R ∧ demoW.weightFromDict (wwDict 3 2 (pyTauTabs 2) R (some demoGamma)) = .ok g ∧
      InBin (2 : ℚ) 2 (1 - 0) 1 ∧ InBin (2 : ℚ) 2 (0 - 0) 0 ∧ relQuad 3 1 ⟨0, 0, 0⟩ ⟨0, 1, 0⟩ ⟨0, 1, 0⟩ = ⟨0, 0, 1, 0⟩ ∧
      g.eval ⟨0, 0, 0⟩ ⟨0, 1, 0⟩ ⟨0, 1, 0⟩ 0 1 0 (fun _ => UP) (fun _ => UP) = .ok (-1) ∧ demoGamma 0 0 1 1 0 = 0 := by
  obtain ⟨R, e, _⟩ := C73_sites_partial (sym := ["Square"]) (lx := 3) (ly := 1) ⟨by norm_num, by norm_num, by simp⟩
  have hl : (pyRTabs ["Square"] 3 1).map (fun (R : RTabs) => R.restore.length) = some 5 := by decide +kernel
  rw [e] at hl
  have hl : R.restore.length = 5 := by simpa using hl
  have ht : (pyTauTabs 2).restore.length = 3 := by decide +kernel
  obtain ⟨g, eg, h⟩ := C73_read_partial (g := demoW) (n := 2) ⟨by norm_num, by norm_num, by simp⟩ e rfl rfl (by norm_num [demoW]) (by norm_num) (by norm_num) (by norm_num)
    (by rw [hl, ht]; norm_num) demoGamma_mirror
  have b1 : InBin (2 : ℚ) 2 (1 - 0) 1 := by norm_num [InBin, foldTau]
  have b0 : InBin (2 : ℚ) 2 (0 - 0) 0 := by norm_num [InBin, foldTau]
  refine ⟨demoGamma_mirror, demoGamma_exchange, R, g, e, eg, b1, b0, by decide, ?_, by decide +kernel⟩
  have := (h (rin := ⟨0, 0, 0⟩) (rout := ⟨0, 1, 0⟩) (ur := ⟨0, 1, 0⟩) (tin := 0) (tout := 1) (ut := 0) (b1 := 1) (b2 := 0) (by simp [InLat, demoW, Site.vec]) (by simp [InLat, demoW, Site.vec]) (by simp [InLat, demoW, Site.vec]) b1 b0
    (fun s => -star ((relQuad (3 : ℕ) (1 : ℕ) ⟨0, 0, 0⟩ ⟨0, 1, 0⟩ ⟨0, 1, 0⟩).full (1 : ℕ) demoGamma s 0 1)) (by intro s; simp) (fun _ => UP) (fun _ => UP)).1 rfl rfl
  rw [this, if_pos rfl]
  decide +kernel

/-- A file whose table of flags is too short. -/
example : demoW.weightFromDict ⟨[0, 1, 2, 3], [1, 1, 1, 1], [0], [0, 0, 0, 0, 0, 0, 0, 0, 0], [1, 1, 1, 1, 1, 1, 1, 1, 1], 1, 4, none⟩ = .abort :=
  C73_lengths _ (by decide) (by decide) (by decide) (by decide) (by decide)

end Feyn
