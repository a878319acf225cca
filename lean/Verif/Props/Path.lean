import Verif.Spec.Path
import Verif.Props.Momenta
import Mathlib.Analysis.Real.Pi.Bounds
import Mathlib.Analysis.InnerProductSpace.PiL2

/-!
# Momenta along a path and the staggered susceptibility of the triangular lattice (C94)
-/

namespace Feyn

open Real (pi)

section
variable {d : ℕ}

theorem mem_symRange {L : ℕ} {a : ℤ} : a ∈ symRange L ↔ |a| ≤ L := by
  unfold symRange
  simp only [List.mem_map, List.mem_range, abs_le]
  constructor
  · rintro ⟨n, h, rfl⟩
    omega
  · rintro ⟨h1, h2⟩
    exact ⟨(a + L).toNat, by omega, by omega⟩

theorem symRange_sorted (L : ℕ) : (symRange L).Pairwise (· < ·) := by
  unfold symRange
  rw [List.pairwise_map]
  exact List.pairwise_lt_range.imp fun h => by omega

theorem mem_gridCoords : ∀ {d : ℕ} {L : Fin d → ℕ} {p : Fin d → ℤ}, p ∈ gridCoords L ↔ ∀ i, |p i| ≤ L i
  | 0, L, p => by
    simp only [gridCoords, List.mem_singleton]
    exact ⟨fun _ i => i.elim0, fun _ => funext fun i => i.elim0⟩
  | d + 1, L, p => by
    simp only [gridCoords, List.mem_flatMap, List.mem_map]
    constructor
    · rintro ⟨a, ha, q, hq, rfl⟩ i
      refine Fin.cases ?_ (fun j => ?_) i
      · rw [Fin.cons_zero]
        exact mem_symRange.1 ha
      · rw [Fin.cons_succ]
        exact mem_gridCoords.1 hq j
    · intro h
      exact ⟨p 0, mem_symRange.2 (h 0), Fin.tail p, mem_gridCoords.2 fun i => h i.succ, Fin.cons_self_tail p⟩

/-- The coordinates of two dimensions are ordered. -/
theorem gridCoords_sorted (L : Fin 2 → ℕ) : (gridCoords L).Pairwise fun p q => p 0 < q 0 ∨ p 0 = q 0 ∧ p 1 < q 1 := by
  have e1 : ∀ L : Fin 1 → ℕ, (gridCoords L).Pairwise fun p q => p 0 < q 0 := by
    intro L
    simp only [gridCoords, List.map_singleton]
    rw [List.pairwise_flatMap]
    refine ⟨fun a _ => List.pairwise_singleton _ _, (symRange_sorted _).imp ?_⟩
    intro a b h x hx y hy
    simp only [List.mem_singleton] at hx hy
    subst hx hy
    exact h
  unfold gridCoords
  rw [List.pairwise_flatMap]
  constructor
  · intro a _
    rw [List.pairwise_map]
    exact (e1 _).imp fun h => Or.inr ⟨rfl, h⟩
  · refine (symRange_sorted _).imp ?_
    intro a b h x hx y hy
    simp only [List.mem_map] at hx hy
    obtain ⟨p, -, rfl⟩ := hx
    obtain ⟨q, -, rfl⟩ := hy
    exact Or.inl h

theorem vecDist_eq (a b : Fin d → ℝ) : vecDist a b = √(∑ i, (a i - b i) ^ 2) := by
  unfold vecDist
  simp only [sq_abs]

theorem vecDist_euclid (a b : Fin d → ℝ) : vecDist a b = dist (WithLp.toLp 2 a : EuclideanSpace ℝ (Fin d)) (WithLp.toLp 2 b) := by
  rw [EuclideanSpace.dist_eq, vecDist]
  simp only [Real.dist_eq]

theorem detour_nonneg (a b k : Fin d → ℝ) : 0 ≤ detour a b k := by
  unfold detour
  rw [← vecDist_eq, ← vecDist_eq, ← vecDist_eq, vecDist_euclid, vecDist_euclid, vecDist_euclid]
  have := dist_triangle (WithLp.toLp 2 b : EuclideanSpace ℝ (Fin d)) (WithLp.toLp 2 k) (WithLp.toLp 2 a)
  linarith

theorem detour_segment {a b k : Fin d → ℝ} (h : OnSegment a b k) : detour a b k = 0 := by
  obtain ⟨s, h0, h1, hk⟩ := h
  unfold detour
  have e1 : ∑ i, (k i - a i) ^ 2 = s ^ 2 * ∑ i, (b i - a i) ^ 2 := by
    rw [Finset.mul_sum]
    refine Finset.sum_congr rfl fun i _ => ?_
    rw [hk]
    ring
  have e2 : ∑ i, (b i - k i) ^ 2 = (1 - s) ^ 2 * ∑ i, (b i - a i) ^ 2 := by
    rw [Finset.mul_sum]
    refine Finset.sum_congr rfl fun i _ => ?_
    rw [hk]
    ring
  rw [e1, e2, Real.sqrt_mul (sq_nonneg _), Real.sqrt_mul (sq_nonneg _), Real.sqrt_sq h0, Real.sqrt_sq (by linarith)]
  ring

theorem mem_kBetween {a b k : Fin d → ℝ} {K : List (Fin d → ℝ)} : k ∈ kBetween a b K ↔ k ∈ K ∧ detour a b k < 1 / 1000 := by
  unfold kBetween
  rw [List.mem_filter, decide_eq_true_eq, vecDist_eq, vecDist_eq, vecDist_eq]
  change k ∈ K ∧ |detour a b k| < 1 / 1000 ↔ _
  rw [abs_of_nonneg (detour_nonneg a b k)]

theorem mem_kVecList {rec : Fin d → Fin d → ℝ} {L : Fin d → ℕ} {z k : Fin d → ℝ} : k ∈ kVecList rec L z ↔ NearGrid rec L z k := by
  unfold kVecList NearGrid
  simp only [List.mem_map, mem_gridCoords]
  exact ⟨fun ⟨p, h, e⟩ => ⟨p, h, fun j => by rw [← e]⟩, fun ⟨p, h, e⟩ => ⟨p, h, funext fun j => (e j).symm⟩⟩

/-- **C94**: the first call gives the momenta of the grid with a detour of less than 1/1000, and so all those on the segment. -/
theorem C94_path (rec : Fin d → Fin d → ℝ) (L : Fin d → ℕ) (a b z k : Fin d → ℝ) :
    (k ∈ (kAlongPath rec L none a b z).1 ↔ NearGrid rec L z k ∧ detour (a + z) (b + z) k < 1 / 1000) ∧
      (NearGrid rec L z k → OnSegment (a + z) (b + z) k → k ∈ (kAlongPath rec L none a b z).1) := by
  have h : k ∈ (kAlongPath rec L none a b z).1 ↔ NearGrid rec L z k ∧ detour (a + z) (b + z) k < 1 / 1000 := by
    rw [← mem_kVecList]
    exact mem_kBetween
  refine ⟨h, fun h1 h2 => h.2 ⟨h1, ?_⟩⟩
  rw [detour_segment h2]
  norm_num

/-- **C94**: later calls give what they would give if they were the first, if no two different centres are close to each other. -/
theorem C94_cache (rec : Fin d → Fin d → ℝ) (L : Fin d → ℕ) (l : List ((Fin d → ℝ) × (Fin d → ℝ) × (Fin d → ℝ)))
    (h : ∀ x ∈ l, ∀ y ∈ l, AllClose x.2.2 y.2.2 → x.2.2 = y.2.2) :
    callsAlong rec L none l = l.map fun x => (kAlongPath rec L none x.1 x.2.1 x.2.2).1 := by
  have key : ∀ (m : List ((Fin d → ℝ) × (Fin d → ℝ) × (Fin d → ℝ))) (c : Option ((Fin d → ℝ) × List (Fin d → ℝ))), (∀ x ∈ m, x ∈ l) →
      (∀ p, c = some p → p.2 = kVecList rec L p.1 ∧ ∃ x ∈ l, x.2.2 = p.1) → callsAlong rec L c m = m.map fun x => (kAlongPath rec L none x.1 x.2.1 x.2.2).1 := by
    intro m
    induction m with
    | nil => intros; rfl
    | cons x m ih =>
      intro c hm hc
      obtain ⟨a, b, z⟩ := x
      have hx := hm _ (List.mem_cons_self ..)
      have e : ∃ K, kAlongPath rec L c a b z = (K, some (z, kVecList rec L z)) ∧ K = (kAlongPath rec L none a b z).1 := by
        unfold kAlongPath
        cases c with
        | none => exact ⟨_, rfl, rfl⟩
        | some p =>
          obtain ⟨q, K⟩ := p
          obtain ⟨h1, y, hy, h2⟩ := hc _ rfl
          simp only at h1 h2
          dsimp only
          split_ifs with hq
          · have : q = z := by
              rw [← h2] at hq ⊢
              exact h _ hy _ hx hq
            subst this
            rw [h1]
            exact ⟨_, rfl, rfl⟩
          · exact ⟨_, rfl, rfl⟩
      obtain ⟨K, e1, e2⟩ := e
      rw [callsAlong, List.map_cons, e1, e2]
      congr 1
      refine ih _ (fun x hx => hm x (List.mem_cons_of_mem _ hx)) ?_
      intro p hp
      simp only [Option.some.injEq] at hp
      subst hp
      exact ⟨rfl, _, hx, rfl⟩
  exact key l none (fun _ h => h) (by simp)

/-- **C94**: the same with a hypothesis on the coordinates of the centres: none beyond 900, and any two centres are equal or differ by 1/100 in some coordinate. -/
theorem C94_centres (rec : Fin d → Fin d → ℝ) (L : Fin d → ℕ) (l : List ((Fin d → ℝ) × (Fin d → ℝ) × (Fin d → ℝ)))
    (hb : ∀ x ∈ l, ∀ i, |x.2.2 i| ≤ 900) (hd : ∀ x ∈ l, ∀ y ∈ l, x.2.2 = y.2.2 ∨ ∃ i, 1 / 100 ≤ |x.2.2 i - y.2.2 i|) :
    callsAlong rec L none l = l.map fun x => (kAlongPath rec L none x.1 x.2.1 x.2.2).1 := by
  refine C94_cache rec L l fun x hx y hy hc => ?_
  rcases hd x hx y hy with h | ⟨i, hi⟩
  · exact h
  · have h1 := hc i
    have h2 := hb y hy i
    exfalso
    linarith

end

/-! ### The triangular lattice -/

section
variable {L : Fin 2 → ℕ}

theorem kvec_x (L : Fin 2 → ℕ) (p : Fin 2 → ℤ) : kvec triangularRec L p 0 = 2 * pi * (p 0 / L 0) := by
  simp [kvec, triangularRec, Fin.sum_univ_two]
  ring

theorem kvec_y (L : Fin 2 → ℕ) (p : Fin 2 → ℤ) : kvec triangularRec L p 1 = 2 * pi / √3 * (2 * (p 1 / L 1) - p 0 / L 0) := by
  simp [kvec, triangularRec, Fin.sum_univ_two]
  ring

theorem detour_two (e : ℝ) (he : 0 ≤ e) (k : Fin 2 → ℝ) : detour ![0, 0] ![e, 0] k = √(k 0 ^ 2 + k 1 ^ 2) + √((e - k 0) ^ 2 + k 1 ^ 2) - e := by
  simp [detour, Fin.sum_univ_two, Real.sqrt_sq he]

/-- Beyond the end. -/
theorem detour_beyond {e : ℝ} (he : 0 ≤ e) (k : Fin 2 → ℝ) : 2 * (k 0 - e) ≤ detour ![0, 0] ![e, 0] k := by
  rw [detour_two e he]
  have h1 : k 0 ≤ √(k 0 ^ 2 + k 1 ^ 2) := Real.le_sqrt_of_sq_le (by nlinarith [sq_nonneg (k 1)])
  have h2 : k 0 - e ≤ √((e - k 0) ^ 2 + k 1 ^ 2) := Real.le_sqrt_of_sq_le (by nlinarith [sq_nonneg (k 1)])
  linarith

/-- At the end, beside it. -/
theorem detour_end {e : ℝ} (he : 0 ≤ e) {k : Fin 2 → ℝ} (hk : k 0 = e) : |k 1| ≤ detour ![0, 0] ![e, 0] k := by
  rw [detour_two e he, hk]
  have h1 : e ≤ √(e ^ 2 + k 1 ^ 2) := Real.le_sqrt_of_sq_le (by nlinarith [sq_nonneg (k 1)])
  have h2 : √((e - e) ^ 2 + k 1 ^ 2) = |k 1| := by
    rw [sub_self, zero_pow two_ne_zero, zero_add, Real.sqrt_sq_eq_abs]
  linarith

/-- Beside the segment. -/
theorem detour_beside {e : ℝ} (he : 0 ≤ e) (k : Fin 2 → ℝ) : e ^ 2 + 4 * k 1 ^ 2 ≤ (detour ![0, 0] ![e, 0] k + e) ^ 2 := by
  rw [detour_two e he]
  set A := √(k 0 ^ 2 + k 1 ^ 2) with hA
  set B := √((e - k 0) ^ 2 + k 1 ^ 2) with hB
  have a2 : A ^ 2 = k 0 ^ 2 + k 1 ^ 2 := Real.sq_sqrt (by positivity)
  have b2 : B ^ 2 = (e - k 0) ^ 2 + k 1 ^ 2 := Real.sq_sqrt (by positivity)
  have ab : k 0 * (e - k 0) + k 1 ^ 2 ≤ A * B := by
    rw [hA, hB, ← Real.sqrt_mul (by positivity)]
    refine Real.le_sqrt_of_sq_le ?_
    nlinarith [sq_nonneg (k 0 * k 1 - (e - k 0) * k 1)]
  nlinarith

/-- The last one of the list, if its coordinates are the greatest ones with a small detour. -/
theorem triangularK_last {p : Fin 2 → ℤ} (hp : ∀ i, |p i| ≤ L i) (hd : detour ![0, 0] ![4 * pi / 3, 0] (kvec triangularRec L p) < 1 / 1000)
    (h : ∀ q : Fin 2 → ℤ, p 0 < q 0 ∨ p 0 = q 0 ∧ p 1 < q 1 → 1 / 1000 ≤ detour ![0, 0] ![4 * pi / 3, 0] (kvec triangularRec L q)) :
    triangularK L none = some (kvec triangularRec L p) := by
  have e : ∃ test : (Fin 2 → ℤ) → Bool, (∀ q, test q = true ↔ detour ![0, 0] ![4 * pi / 3, 0] (kvec triangularRec L q) < 1 / 1000) ∧
      (kAlongPath triangularRec L none triangularPath.1 triangularPath.2 ![0, 0]).1 = ((gridCoords L).filter test).map (kvec triangularRec L) := by
    have ez : (fun i => (![0, 0] : Fin 2 → ℝ) i + (![0, 0] : Fin 2 → ℝ) i) = ![0, 0] := by
      funext i
      fin_cases i <;> simp
    have ee : (fun i => (![4 * pi / 3, 0] : Fin 2 → ℝ) i + (![0, 0] : Fin 2 → ℝ) i) = ![4 * pi / 3, 0] := by
      funext i
      fin_cases i <;> simp
    have ek : (fun (p : Fin 2 → ℤ) k => (![0, 0] : Fin 2 → ℝ) k + kvec triangularRec L p k) = kvec triangularRec L := by
      funext p k
      fin_cases k <;> simp
    change ∃ test : (Fin 2 → ℤ) → Bool, _ ∧ kBetween (fun i => (![0, 0] : Fin 2 → ℝ) i + (![0, 0] : Fin 2 → ℝ) i) (fun i => (![4 * pi / 3, 0] : Fin 2 → ℝ) i + (![0, 0] : Fin 2 → ℝ) i)
      ((gridCoords L).map fun p k => (![0, 0] : Fin 2 → ℝ) k + kvec triangularRec L p k) = _
    rw [ez, ee, ek, kBetween, List.filter_map]
    refine ⟨_, fun q => ?_, rfl⟩
    rw [Function.comp_apply, decide_eq_true_eq, vecDist_eq, vecDist_eq, vecDist_eq]
    change |detour ![0, 0] ![4 * pi / 3, 0] (kvec triangularRec L q)| < 1 / 1000 ↔ _
    rw [abs_of_nonneg (detour_nonneg _ _ _)]
  obtain ⟨test, mem, e⟩ := e
  unfold triangularK
  rw [e, List.getLast?_map]
  have hm := List.mem_filter.2 ⟨mem_gridCoords.2 hp, (mem p).2 hd⟩
  have hs := (gridCoords_sorted L).filter test
  have hall : ∀ q ∈ (gridCoords L).filter test, detour ![0, 0] ![4 * pi / 3, 0] (kvec triangularRec L q) < 1 / 1000 := fun q hq => (mem q).1 (List.mem_filter.1 hq).2
  obtain ⟨A, B, hAB⟩ := List.append_of_mem hm
  rw [hAB] at hs hall ⊢
  have hB : B = [] := by
    rw [List.pairwise_append] at hs
    refine List.eq_nil_iff_forall_not_mem.2 fun q hq => ?_
    have h1 := (List.pairwise_cons.1 hs.2.1).1 q hq
    have h2 := hall q (by simp [hq])
    linarith [h q h1]
  rw [hB]
  simp

theorem root3_bounds : 1.732 < √3 ∧ √3 < (1.733 : ℝ) := by
  constructor
  · exact Real.lt_sqrt_of_sq_lt (by norm_num)
  · exact (Real.sqrt_lt' (by norm_num)).2 (by norm_num)

/-- **C94**: if both sizes are multiples of three, the momentum is the corner of the Brillouin zone. -/
theorem C94_corner (h3 : ∀ i, 3 ∣ L i) (hL : ∀ i, 0 < L i ∧ L i ≤ 7000) : triangularK L none = some ![4 * pi / 3, 0] := by
  obtain ⟨m0, e0⟩ := h3 0
  obtain ⟨m1, e1⟩ := h3 1
  obtain ⟨a0, b0⟩ := hL 0
  obtain ⟨a1, b1⟩ := hL 1
  have hp := Real.pi_gt_d2
  have he : (0 : ℝ) ≤ 4 * pi / 3 := by positivity
  have c0 : (0 : ℝ) < L 0 := by exact_mod_cast a0
  have c1 : (0 : ℝ) < L 1 := by exact_mod_cast a1
  have d0 : (L 0 : ℝ) ≤ 7000 := by exact_mod_cast b0
  have d1 : (L 1 : ℝ) ≤ 7000 := by exact_mod_cast b1
  have f0 : (L 0 : ℝ) = 3 * m0 := by exact_mod_cast e0
  have f1 : (L 1 : ℝ) = 3 * m1 := by exact_mod_cast e1
  have g0 : (0 : ℝ) < m0 := by linarith
  have g1 : (0 : ℝ) < m1 := by linarith
  have hk : kvec triangularRec L ![2 * (m0 : ℤ), (m1 : ℤ)] = ![4 * pi / 3, 0] := by
    funext i
    fin_cases i
    · change kvec triangularRec L _ 0 = _
      rw [kvec_x, f0]
      simp
      field_simp
      ring
    · change kvec triangularRec L _ 1 = _
      rw [kvec_y, f0, f1]
      simp
      field_simp
      ring
  rw [← hk]
  refine triangularK_last ?_ ?_ ?_
  · intro i
    fin_cases i <;> simp <;> omega
  · rw [hk, detour_two _ he]
    simp [Real.sqrt_sq he]
  · intro q hq
    simp only [Matrix.cons_val_zero, Matrix.cons_val_one] at hq
    rcases hq with hq | ⟨hq, hr⟩
    · refine le_trans ?_ (detour_beyond he _)
      rw [kvec_x]
      have : (2 * m0 + 1 : ℝ) ≤ q 0 := by exact_mod_cast hq
      have h2 : (2 * m0 + 1 : ℝ) / L 0 ≤ q 0 / L 0 := by gcongr
      have h3 : (2 * m0 + 1 : ℝ) / L 0 = 2 / 3 + 1 / L 0 := by
        rw [f0]
        field_simp
      have h4 : (1 : ℝ) / 7000 ≤ 1 / L 0 := by gcongr
      nlinarith
    · have hx : kvec triangularRec L q 0 = 4 * pi / 3 := by
        rw [kvec_x, ← hq, f0]
        push_cast
        field_simp
        ring
      refine le_trans ?_ (detour_end he hx)
      rw [kvec_y, ← hq]
      refine le_trans ?_ (le_abs_self _)
      have : (m1 + 1 : ℝ) ≤ q 1 := by exact_mod_cast hr
      have h2 : (m1 + 1 : ℝ) / L 1 ≤ q 1 / L 1 := by gcongr
      have h3 : (m1 + 1 : ℝ) / L 1 = 1 / 3 + 1 / L 1 := by
        rw [f1]
        field_simp
      have h4 : (1 : ℝ) / 7000 ≤ 1 / L 1 := by gcongr
      have h5 : ((2 * (m0 : ℤ) : ℤ) : ℝ) / L 0 = 2 / 3 := by
        rw [f0]
        push_cast
        field_simp
      rw [h5]
      have h6 : (3.6 : ℝ) ≤ 2 * pi / √3 := by
        rw [le_div_iff₀ (by positivity)]
        nlinarith [root3_bounds.2]
      nlinarith

/-- **C94**: a momentum is always found. -/
theorem C94_found (L : Fin 2 → ℕ) : ∃ k, triangularK L none = some k ∧ NearGrid triangularRec L 0 k ∧ detour ![0, 0] ![4 * pi / 3, 0] k < 1 / 1000 := by
  have ez : (0 : Fin 2 → ℝ) = ![0, 0] := by
    funext i
    fin_cases i <;> rfl
  have key := fun k => (C94_path triangularRec L triangularPath.1 triangularPath.2 ![0, 0] k)
  rw [← ez] at key
  simp only [add_zero] at key
  have h0 : (fun _ => 0 : Fin 2 → ℝ) ∈ (kAlongPath triangularRec L none triangularPath.1 triangularPath.2 0).1 := by
    refine (key _).2 ⟨fun _ => 0, by simp, fun j => by simp [kvec]⟩ ⟨0, le_rfl, zero_le_one, fun i => ?_⟩
    fin_cases i <;> simp [triangularPath]
  obtain ⟨k, hk⟩ := Option.isSome_iff_exists.1 (List.getLast?_isSome.2 (List.ne_nil_of_mem h0))
  refine ⟨k, ?_, (key k).1.1 (List.mem_of_getLast? hk)⟩
  unfold triangularK
  rw [← ez]
  exact hk

/-- **C94** refuted for all other sizes: the momentum is not the corner of the Brillouin zone, because that is no momentum of the lattice. -/
theorem C94_refuted_corner (hL : ∀ i, 0 < L i) (h : ¬ ∀ i, 3 ∣ L i) : triangularK L none ≠ some ![4 * pi / 3, 0] := by
  intro hk
  obtain ⟨k, h1, ⟨p, -, h2⟩, -⟩ := C94_found L
  rw [hk, Option.some.injEq] at h1
  subst h1
  have c0 : (L 0 : ℝ) ≠ 0 := by exact_mod_cast (hL 0).ne'
  have c1 : (L 1 : ℝ) ≠ 0 := by exact_mod_cast (hL 1).ne'
  have x := h2 0
  have y := h2 1
  rw [kvec_x] at x
  rw [kvec_y] at y
  simp at x y
  have x' : (p 0 : ℝ) / L 0 = 2 / 3 := by
    have := Real.pi_ne_zero
    field_simp at x ⊢
    linarith
  have x2 : 3 * p 0 = 2 * (L 0 : ℤ) := by
    rw [div_eq_div_iff c0 (by norm_num)] at x'
    have : (p 0 : ℝ) * 3 = ((2 * (L 0 : ℤ) : ℤ) : ℝ) := by
      rw [x']
      push_cast
      ring
    have : p 0 * 3 = 2 * (L 0 : ℤ) := by exact_mod_cast this
    linarith
  have y' : (p 1 : ℝ) / L 1 = 1 / 3 := by
    linarith
  have y2 : 3 * p 1 = (L 1 : ℤ) := by
    rw [div_eq_div_iff c1 (by norm_num)] at y'
    have : p 1 * 3 = 1 * (L 1 : ℤ) := by exact_mod_cast y'
    linarith
  refine h fun i => ?_
  fin_cases i
  · change 3 ∣ L 0
    omega
  · change 3 ∣ L 1
    omega

/-- **C94**: what the momentum is on small lattices with two equal sizes. -/
theorem C94_equal {n : ℕ} (h0 : 0 < n) (hn : n ≤ 75) : triangularK ![n, n] none = some ![4 * pi * ((n / 3 : ℕ) : ℝ) / n, 0] := by
  set m := n / 3 with hm
  have c0 : (0 : ℝ) < n := by exact_mod_cast h0
  have d0 : (n : ℝ) ≤ 75 := by exact_mod_cast hn
  have hp := Real.pi_gt_d2
  have hp' := Real.pi_lt_d2
  have he : (0 : ℝ) ≤ 4 * pi / 3 := by positivity
  have hk : kvec triangularRec ![n, n] ![2 * (m : ℤ), (m : ℤ)] = ![4 * pi * (m : ℝ) / n, 0] := by
    funext i
    fin_cases i
    · change kvec triangularRec _ _ 0 = _
      rw [kvec_x]
      simp
      ring
    · change kvec triangularRec _ _ 1 = _
      rw [kvec_y]
      simp
      ring
  have hmn : (3 * m : ℝ) ≤ n := by
    have : 3 * m ≤ n := by omega
    exact_mod_cast this
  have hinv : (1 : ℝ) / 75 ≤ 1 / n := by gcongr
  rw [← hk]
  refine triangularK_last ?_ ?_ ?_
  · intro i
    fin_cases i <;> simp <;> omega
  · rw [hk, detour_two _ he]
    have h1 : (0 : ℝ) ≤ 4 * pi * m / n := by positivity
    have h2 : 4 * pi * m / n ≤ 4 * pi / 3 := by
      rw [div_le_div_iff₀ c0 (by norm_num)]
      nlinarith
    simp only [Matrix.cons_val_zero, Matrix.cons_val_one, zero_pow two_ne_zero, add_zero]
    rw [Real.sqrt_sq h1, Real.sqrt_sq (by linarith)]
    norm_num
  · intro q hq
    simp only [Matrix.cons_val_zero, Matrix.cons_val_one] at hq
    have beside : 2 * q 1 - q 0 ≠ 0 → 1 / 1000 ≤ detour ![0, 0] ![4 * pi / 3, 0] (kvec triangularRec ![n, n] q) := by
      intro hne
      have k := detour_beside he (kvec triangularRec ![n, n] q)
      have hy : kvec triangularRec ![n, n] q 1 = 2 * pi / √3 * (((2 * q 1 - q 0 : ℤ) : ℝ) / n) := by
        rw [kvec_y]
        simp
        ring
      have h1 : (1 : ℝ) ≤ ((2 * q 1 - q 0 : ℤ) : ℝ) ^ 2 := by
        have : 1 ≤ (2 * q 1 - q 0) ^ 2 := by
          have := sq_pos_of_ne_zero hne
          omega
        exact_mod_cast this
      have h2 : kvec triangularRec ![n, n] q 1 ^ 2 = 4 * pi ^ 2 / 3 * (((2 * q 1 - q 0 : ℤ) : ℝ) ^ 2 * (1 / n) ^ 2) := by
        rw [hy, mul_pow, div_pow, Real.sq_sqrt (by norm_num)]
        ring
      have h3 : (1 / 75 : ℝ) ^ 2 ≤ ((2 * q 1 - q 0 : ℤ) : ℝ) ^ 2 * (1 / n) ^ 2 := by
        have h4 : (1 / 75 : ℝ) ^ 2 ≤ (1 / n : ℝ) ^ 2 := by gcongr
        nlinarith [sq_nonneg (1 / n : ℝ)]
      have h4 : 4 * pi ^ 2 / 3 * (1 / 75 : ℝ) ^ 2 ≤ kvec triangularRec ![n, n] q 1 ^ 2 := by
        rw [h2]
        exact mul_le_mul_of_nonneg_left h3 (by positivity)
      by_contra hlt
      have h5 := detour_nonneg ![0, 0] ![4 * pi / 3, 0] (kvec triangularRec ![n, n] q)
      nlinarith
    by_cases hb : 2 * (n : ℤ) < 3 * q 0
    · refine le_trans ?_ (detour_beyond he _)
      rw [kvec_x]
      have h1 : (2 * n + 1 : ℝ) ≤ 3 * q 0 := by exact_mod_cast hb
      simp only [Matrix.cons_val_zero]
      have h2 : (2 / 3 : ℝ) + 1 / 3 * (1 / n) ≤ q 0 / n := by
        rw [le_div_iff₀ c0]
        have : (2 / 3 + 1 / 3 * (1 / n) : ℝ) * n = (2 * n + 1) / 3 := by
          field_simp
        linarith
      nlinarith
    · refine beside ?_
      omega

theorem stag_value {N : ℕ} [NeZero N] {beta : ℚ} (hb : beta ≠ 0) (hL : ∀ i, 0 < L i) {χ : Chi L N 1} {f : Grid L N (Fin 1 → Fin 1 → ℂ)} (h : χ.Shows ⟨beta, true, true⟩ Phase.complex f)
    (c : Option ((Fin 2 → ℝ) × List (Fin 2 → ℝ))) :
    stagTriangular beta χ c = (triangularK L c).map (latFourier triangularGeo fun a b r => ∑ t, f r t a b * ((beta / N : ℚ) : ℂ)) := by
  have hN : 0 < N := Nat.pos_of_ne_zero (NeZero.ne N)
  obtain ⟨h1, h2, h3⟩ := C63_transform ⟨beta, true, true⟩ Phase.complex hN hL hb χ f h [.R, .W]
  obtain ⟨g1, g2, g3⟩ := C63_transform ⟨beta, true, true⟩ Phase.complex hN hL hb _ f h1 [.R, .T]
  obtain ⟨k1, k2, k3⟩ := C63_transform ⟨beta, true, true⟩ Phase.complex hN hL hb _ f g1 [.R, .W]
  unfold Plain.Shows at k1
  rw [k2, k3] at k1
  unfold stagTriangular
  congr 2
  funext a b r
  unfold Chi.first
  rw [k1, ← Finset.sum_mul]
  congr 1
  simp [after, Kind.view, matsubara, Kind.sigma, Phase.complex, Finset.sum_apply]

/-- **C94**: on lattices with both sizes multiples of three, the staggered susceptibility is the integral over imaginary time at the corner of the Brillouin zone. The neighbours of a site
have the phases of the order with three sublattices there: third roots of one, different from one. -/
theorem C94_staggered_partial {N : ℕ} [NeZero N] (h3 : ∀ i, 3 ∣ L i) (hL : ∀ i, 0 < L i ∧ L i ≤ 7000) {beta : ℚ} (hb : beta ≠ 0) {χ : Chi L N 1} {f : Grid L N (Fin 1 → Fin 1 → ℂ)}
    (h : χ.Shows ⟨beta, true, true⟩ Phase.complex f) :
    stagTriangular beta χ none = some (latFourier triangularGeo (fun a b r => ∑ t, f r t a b * ((beta / N : ℚ) : ℂ)) ![4 * pi / 3, 0]) ∧
      ∀ v, triangularGeo.neighbour 1 0 0 v → wave (triangularGeo.disp 0 0 v) ![4 * pi / 3, 0] ^ 3 = 1 ∧ wave (triangularGeo.disp 0 0 v) ![4 * pi / 3, 0] ≠ 1 := by
  refine ⟨?_, fun v hv => ?_⟩
  · rw [stag_value hb (fun i => (hL i).1) h, C94_corner h3 hL]
    rfl
  · have hv' := (triangular_shells.1 0 0 v).1 hv
    have hw : ∀ v : Fin 2 → ℤ, wave (triangularGeo.disp 0 0 v) ![4 * pi / 3, 0] = Complex.exp (-(((2 * v 0 + v 1 : ℤ) : ℂ) * (2 * pi * Complex.I / 3))) := by
      intro v
      unfold wave
      congr 1
      simp [Geometry.disp, triangularGeo, Fin.sum_univ_two]
      ring
    rw [hw]
    constructor
    · rw [← Complex.exp_nat_mul, Complex.exp_eq_one_iff]
      refine ⟨-(2 * v 0 + v 1), ?_⟩
      push_cast
      ring
    · rw [Ne, Complex.exp_eq_one_iff]
      rintro ⟨z, hz⟩
      have hpi : (pi : ℂ) * Complex.I ≠ 0 := mul_ne_zero (Complex.ofReal_ne_zero.2 Real.pi_ne_zero) Complex.I_ne_zero
      have e : ((2 * v 0 + v 1 : ℤ) : ℂ) = ((-3 * z : ℤ) : ℂ) := by
        apply mul_right_cancel₀ hpi
        push_cast
        push_cast at hz
        linear_combination (-3 / 2) * hz
      have e' : 2 * v 0 + v 1 = -3 * z := by exact_mod_cast e
      have key : ∀ v ∈ triangularB1 0 0, (2 * v 0 + v 1) % 3 ≠ 0 := by decide +kernel
      exact key v hv' (by omega)

/-- **C94** refuted for a lattice of two times two cells: the staggered susceptibility is the uniform one. -/
theorem C94_refuted_two {N : ℕ} [NeZero N] {beta : ℚ} (hb : beta ≠ 0) (χ : Chi ![2, 2] N 1) (f : Grid ![2, 2] N (Fin 1 → Fin 1 → ℂ)) (h : χ.Shows ⟨beta, true, true⟩ Phase.complex f) :
    stagTriangular beta χ none = some (unifChi triangularGeo beta χ) := by
  have hL : ∀ i, 0 < (![2, 2] : Fin 2 → ℕ) i := by decide
  rw [stag_value hb hL h, C94_equal two_pos (by norm_num), C68_uniform triangularGeo beta hb hL χ f h]
  simp only [Option.map_some, Option.some.injEq]
  unfold latFourier
  congr 1
  refine Finset.sum_congr rfl fun a _ => ?_
  rw [Finset.sum_comm]
  refine Finset.sum_congr rfl fun b _ => Finset.sum_congr rfl fun r _ => ?_
  simp

/-- Sizes 3 and 6, 2 and 4. -/
example : triangularK ![3, 6] none = some ![4 * pi / 3, 0] ∧ triangularK ![2, 2] none = some ![0, 0] ∧ triangularK ![4, 4] none = some ![pi, 0] := by
  refine ⟨C94_corner (by decide) (by decide), ?_, ?_⟩
  · rw [C94_equal two_pos (by norm_num)]
    simp
  · rw [C94_equal four_pos (by norm_num)]
    simp

/-- `C94_path` and `C94_cache` for a square lattice: the segment from the origin to `(π, 0)` has a third momentum with four cells, also in a second call. -/
example : ![pi / 2, 0] ∈ (kAlongPath squareRec ![4, 4] none ![0, 0] ![pi, 0] ![0, 0]).1 ∧
    callsAlong squareRec ![4, 4] none [(![0, 0], ![pi, 0], ![0, 0]), (![0, 0], ![pi, 0], ![0, 0])] =
      [(kAlongPath squareRec ![4, 4] none ![0, 0] ![pi, 0] ![0, 0]).1, (kAlongPath squareRec ![4, 4] none ![0, 0] ![pi, 0] ![0, 0]).1] := by
  refine ⟨(C94_path squareRec ![4, 4] ![0, 0] ![pi, 0] ![0, 0] ![pi / 2, 0]).2 ⟨![1, 0], ?_, ?_⟩ ⟨1 / 2, by norm_num, by norm_num, ?_⟩, ?_⟩
  · decide
  · intro j
    fin_cases j <;> simp [kvec, squareRec, Fin.sum_univ_two]
    ring
  · intro j
    fin_cases j <;> simp
    ring
  · rw [C94_cache]
    · rfl
    · simp

end

/-- `C94_centres` for two paths around the origin and one around `(6, 0)` between them. -/
example (rec : Fin 2 → Fin 2 → ℝ) (L : Fin 2 → ℕ) : callsAlong rec L none [(![0, 0], ![1, 0], ![0, 0]), (![0, 0], ![0, 1], ![6, 0]), (![1, 0], ![0, 0], ![0, 0])] =
    [(kAlongPath rec L none ![0, 0] ![1, 0] ![0, 0]).1, (kAlongPath rec L none ![0, 0] ![0, 1] ![6, 0]).1, (kAlongPath rec L none ![1, 0] ![0, 0] ![0, 0]).1] := by
  rw [C94_centres]
  · rfl
  · intro x hx i
    simp only [List.mem_cons, List.not_mem_nil, or_false] at hx
    rcases hx with rfl | rfl | rfl <;> fin_cases i <;> norm_num [abs_le]
  · intro x hx y hy
    simp only [List.mem_cons, List.not_mem_nil, or_false] at hx hy
    rcases hx with rfl | rfl | rfl <;> rcases hy with rfl | rfl | rfl <;> first | exact Or.inl rfl | exact Or.inr ⟨0, by norm_num [le_abs]⟩

end Feyn
