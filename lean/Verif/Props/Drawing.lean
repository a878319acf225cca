import Verif.Proof.Drawing
import Verif.Spec.Drawing
import Verif.Props.Couplings
import Verif.Props.Tables

/-! # The drawing of the model (C100) -/

namespace Feyn

section
variable {d n : ℕ}

theorem inLat_cells {L : Fin d → ℕ} {c : Fin d → ℤ} (h : InCells L c) : InLat ((List.ofFn L).map fun l : ℕ => (l : ℤ)) (List.ofFn c) := by
  rw [List.map_ofFn]
  exact inLat_ofFn h

theorem cells_of_inLat {L : Fin d → ℕ} {c : List ℤ} (h : InLat ((List.ofFn L).map fun l : ℕ => (l : ℤ)) c) : ∃ c' : Fin d → ℤ, InCells L c' ∧ c = List.ofFn c' := by
  have hl : c.length = d := by
    have := List.Forall₂.length_eq h
    simpa using this.symm
  subst hl
  refine ⟨fun i => c[i], fun i => ?_, List.ofFn_getElem.symm⟩
  have := (List.forall₂_iff_get.1 h).2 i (by simp) i.2
  simpa using this

theorem length_mem (h : d ∈ [1, 2, 3]) (L : Fin d → ℕ) : (List.ofFn L).length ∈ [1, 2, 3] := by rwa [List.length_ofFn]

theorem ofFn_ne (h : d ∈ [1, 2, 3]) (L : Fin d → ℕ) : List.ofFn L ≠ [] := by
  intro e
  have := congrArg List.length e
  simp at this
  subst this
  simp at h

/-- **C100, sites.** The list of sites has one element for every site of the lattice, at the index of the site. Every index belongs to one site. -/
theorem C100_sites (hd : d ∈ [1, 2, 3]) (g : Geometry d n) (L : Fin d → ℕ) (has : Bool) (a : Fin n) :
    ∃ points lines, g.sitesList (List.ofFn L) has a = some (points, lines) ∧ points.length = (∏ i, L i) * n ∧
      (∀ c, InCells L c → ∀ s : Fin n, ∃ i : ℕ, pyLatIndex (List.ofFn L) (List.ofFn c) s = i ∧
        points[i]? = some (some ⟨g.drawVec (List.ofFn L) (drawOffset (List.ofFn L) has) (List.ofFn c) a s, List.ofFn c, s⟩)) ∧
      ∀ i < points.length, ∃! x : (Fin d → ℤ) × Fin n, InCells L x.1 ∧ pyLatIndex (List.ofFn L) (List.ofFn x.1) x.2 = i := by
  have hne := ofFn_ne hd L
  have hlen : (((g.siteItems (List.ofFn L) (drawOffset (List.ofFn L) has) a (coordRows (List.ofFn L))).map fun e => e.2).map some).length = (∏ i, L i) * n := by
    have := congrArg List.length (siteItems_keys g hne (drawOffset (List.ofFn L) has) a)
    simpa [List.prod_ofFn] using this
  refine ⟨_, _, sitesList_eq g (length_mem hd L) has a, hlen, fun c hc s => ?_, fun i hi => ?_⟩
  · obtain ⟨i, h1, h2⟩ := siteItems_of g hne (drawOffset (List.ofFn L) has) a (inLat_cells hc) s
    refine ⟨i, h1, ?_⟩
    rw [List.getElem?_map, List.getElem?_map, h2]
    rfl
  · have hi' : i < (g.siteItems (List.ofFn L) (drawOffset (List.ofFn L) has) a (coordRows (List.ofFn L))).length := by simpa using hi
    obtain ⟨h1, -, c, s, hc, h2⟩ := siteItems_at g hne _ a (List.getElem?_eq_getElem hi')
    obtain ⟨c', hc', rfl⟩ := cells_of_inLat hc
    rw [h2] at h1
    refine ⟨(c', s), ⟨hc', h1⟩, ?_⟩
    rintro ⟨c2, s2⟩ ⟨hc2, h3⟩
    obtain ⟨e1, e2⟩ := pyLatIndex_inj hne (inLat_cells hc2) (inLat_cells hc') (h3.trans h1.symm)
    exact Prod.ext (List.ofFn_injective e1) e2

/-- **C100, places.** A site is drawn at the place of its cell, moved by half of the size less one (or not moved), in the periodic lattice. -/
theorem C100_place (g : Geometry d n) {L : Fin d → ℕ} {c : Fin d → ℤ} (hc : InCells L c) (has : Bool) (a b : Fin n) :
    ∃ x, IsCell L c (fun i => if has then (L i : ℤ) / 2 - 1 else 0) x ∧
      g.drawVec (List.ofFn L) (drawOffset (List.ofFn L) has) (List.ofFn c) a b = g.placeOf x a b := by
  refine ⟨fun i => foldOnce (L i) (c i + moveBy (L i) has), fun i => ?_, ?_⟩
  · have hl : 0 < L i := by have := hc i; omega
    obtain ⟨h0, h1⟩ := moveBy_bounds hl has (hc i).1 (hc i).2
    exact foldOnce_spec h0 h1
  · funext k
    simp only [Geometry.drawVec, Geometry.placeOf, drawCell_ofFn]

theorem cell_unique {L : Fin d → ℕ} {c t x y : Fin d → ℤ} (hx : IsCell L c t x) (hy : IsCell L c t y) : x = y := by
  funext i
  obtain ⟨a0, a1, a2⟩ := hx i
  obtain ⟨b0, b1, b2⟩ := hy i
  have h := Int.dvd_sub a2 b2
  have e : x i - (c i + t i) - (y i - (c i + t i)) = x i - y i := by ring
  rw [e] at h
  have := Int.eq_zero_of_abs_lt_dvd h (by rw [abs_lt]; constructor <;> omega)
  omega

/-- **C100, cells.** The cell at which a site is drawn is the only one with this property, and different cells stay different. -/
theorem C100_cells {L : Fin d → ℕ} {c c' t x y : Fin d → ℤ} (hc : InCells L c) (hc' : InCells L c') (hx : IsCell L c t x) (hy : IsCell L c' t y) : x = y ↔ c = c' := by
  constructor
  · intro e
    subst e
    funext i
    obtain ⟨-, -, a2⟩ := hx i
    obtain ⟨-, -, b2⟩ := hy i
    have h := Int.dvd_sub a2 b2
    have e : x i - (c i + t i) - (x i - (c' i + t i)) = c' i - c i := by ring
    rw [e] at h
    have h1 := hc i
    have h2 := hc' i
    have := Int.eq_zero_of_abs_lt_dvd h (by rw [abs_lt]; constructor <;> omega)
    omega
  · rintro rfl
    exact cell_unique hx hy

/-- **C100, no overlap.** If no two sites of the infinite lattice coincide, no two sites are drawn at the same place. -/
theorem C100_distinct {g : Geometry d n} (hg : g.NoOverlap) {L : Fin d → ℕ} {c c' : Fin d → ℤ} (hc : InCells L c) (hc' : InCells L c') (has : Bool) (a b b' : Fin n) :
    g.drawVec (List.ofFn L) (drawOffset (List.ofFn L) has) (List.ofFn c) a b = g.drawVec (List.ofFn L) (drawOffset (List.ofFn L) has) (List.ofFn c') a b' ↔ c = c' ∧ b = b' := by
  obtain ⟨x, hx, e1⟩ := C100_place g hc has a b
  obtain ⟨y, hy, e2⟩ := C100_place g hc' has a b'
  rw [e1, e2]
  constructor
  · intro h
    have h0 : g.placeOf (x - y) b' b = 0 := by
      funext k
      have := congrFun h k
      simp only [Geometry.placeOf] at this ⊢
      simp only [Pi.sub_apply, Int.cast_sub, mul_sub, Finset.sum_sub_distrib, Pi.zero_apply]
      linarith
    obtain ⟨h1, h2⟩ := hg _ _ _ h0
    exact ⟨(C100_cells hc hc' hx hy).1 (sub_eq_zero.1 h1), h2.symm⟩
  · rintro ⟨rfl, rfl⟩
    rw [cell_unique hx hy]

/-- **C100, window.** Relative to the cell zero, a cell is drawn at its periodic image between `1 - L/2` and `L - L/2`. -/
theorem C100_window (g : Geometry d n) {L : Fin d → ℕ} (hL : ∀ i, 0 < L i) {c : Fin d → ℤ} (hc : InCells L c) (a b : Fin n) (v : Fin d → ℤ)
    (hv : ∀ i, (L i : ℤ) ∣ v i - c i ∧ (if L i = 1 then v i = 0 else 1 - (L i : ℤ) / 2 ≤ v i ∧ v i ≤ L i - (L i : ℤ) / 2)) (z : Fin n) :
    g.drawVec (List.ofFn L) (drawOffset (List.ofFn L) true) (List.ofFn c) z b - g.drawVec (List.ofFn L) (drawOffset (List.ofFn L) true) (List.ofFn fun _ : Fin d => 0) z a =
      g.placeOf v a b := by
  have h0 : InCells L fun _ => 0 := fun i => ⟨le_rfl, by have := hL i; simpa using this⟩
  obtain ⟨x, hx, e1⟩ := C100_place g hc true z b
  obtain ⟨y, hy, e2⟩ := C100_place g h0 true z a
  have hxy : x = y + v := by
    funext i
    obtain ⟨a0, a1, a2⟩ := hx i
    obtain ⟨b0, b1, b2⟩ := hy i
    obtain ⟨c1, c2⟩ := hv i
    simp only [if_true, zero_add] at a2 b2
    have hd : (L i : ℤ) ∣ x i - (y i + v i) := by
      have := Int.dvd_sub (Int.dvd_sub a2 b2) c1
      have e : x i - (c i + ((L i : ℤ) / 2 - 1)) - (y i - ((L i : ℤ) / 2 - 1)) - (v i - c i) = x i - (y i + v i) := by ring
      rwa [e] at this
    have hl := hL i
    have : x i - (y i + v i) = 0 := by
      refine Int.eq_zero_of_abs_lt_dvd hd ?_
      rw [abs_lt]
      split_ifs at c2 with h1
      · constructor <;> omega
      · have hy0 : y i = (L i : ℤ) / 2 - 1 := by
          have := Int.eq_zero_of_abs_lt_dvd b2 (by rw [abs_lt]; constructor <;> omega)
          omega
        constructor <;> omega
    rw [Pi.add_apply]
    omega
  rw [e1, e2, hxy]
  funext k
  simp only [Pi.sub_apply, Geometry.placeOf, Pi.add_apply, Int.cast_add, mul_add, Finset.sum_add_distrib]
  ring

/-- **C100, neighbours.** With four cells or more in every direction, a cell at a distance of at most one in every coordinate is drawn beside the cell zero. -/
theorem C100_neighbours (g : Geometry d n) {L : Fin d → ℕ} (hL : ∀ i, 4 ≤ L i) {c : Fin d → ℤ} (hc : InCells L c) (a b z : Fin n) (e : Fin d → ℤ)
    (he : ∀ i, |e i| ≤ 1 ∧ (L i : ℤ) ∣ e i - c i) :
    g.drawVec (List.ofFn L) (drawOffset (List.ofFn L) true) (List.ofFn c) z b - g.drawVec (List.ofFn L) (drawOffset (List.ofFn L) true) (List.ofFn fun _ : Fin d => 0) z a =
      g.placeOf e a b := by
  refine C100_window g (fun i => by have := hL i; omega) hc a b e (fun i => ⟨(he i).2, ?_⟩) z
  have h1 := hL i
  have h2 := abs_le.1 (he i).1
  rw [if_neg (by omega)]
  omega

/-- **C100, refuted for small lattices.** On a chain of three cells the left neighbour of the cell zero is drawn two cells to the right of it. -/
theorem C100_refuted_three : chainGeo.drawVec [3] (drawOffset [3] true) [2] 0 0 - chainGeo.drawVec [3] (drawOffset [3] true) [0] 0 0 = fun _ => 2 := by
  have h1 : drawCell [3] (drawOffset [3] true) [2] = [2] := by decide +kernel
  have h2 : drawCell [3] (drawOffset [3] true) [0] = [0] := by decide +kernel
  funext k
  fin_cases k
  simp [Geometry.drawVec, h1, h2, chainGeo]

/-- **C100, cells as lines.** The lines within the cells: every pair of sites of the same cell once, each site with itself included. -/
theorem C100_lines (hd : d ∈ [1, 2, 3]) (g : Geometry d n) (L : Fin d → ℕ) (has : Bool) (a : Fin n) {points : List (Option (DrawnSite d n))} {lines : List ((ℤ × ℤ) × Fin n)}
    (h : g.sitesList (List.ofFn L) has a = some (points, lines)) :
    lines.Nodup ∧ ∀ i j s, ((i, j), s) ∈ lines ↔ ∃ c t, InCells L c ∧ s ≤ t ∧ i = pyLatIndex (List.ofFn L) (List.ofFn c) s ∧ j = pyLatIndex (List.ofFn L) (List.ofFn c) t := by
  have hne := ofFn_ne hd L
  rw [sitesList_eq g (length_mem hd L) has a] at h
  simp only [Option.some.injEq, Prod.mk.injEq] at h
  obtain ⟨-, rfl⟩ := h
  constructor
  · unfold cellLines
    rw [List.nodup_flatMap]
    constructor
    · intro c hc
      rw [List.nodup_flatMap]
      constructor
      · intro s _
        refine List.Nodup.map_on ?_ ((List.nodup_finRange n).filter _)
        intro t _ t' _ e
        simp only [Prod.mk.injEq] at e
        exact (pyLatIndex_inj hne ((coordRows_inLat _ _).1 hc) ((coordRows_inLat _ _).1 hc) e.1.2).2
      · refine (List.nodup_finRange n).imp ?_
        intro s s' hs x hx hx'
        simp only [List.mem_map] at hx hx'
        obtain ⟨_, -, rfl⟩ := hx
        obtain ⟨_, -, e⟩ := hx'
        simp only [Prod.mk.injEq] at e
        exact hs e.2.symm
    · refine List.Pairwise.imp_of_mem ?_ (coordRows_nodup hne)
      intro c c' hc hc' hcc x hx hx'
      simp only [List.mem_flatMap, List.mem_map] at hx hx'
      obtain ⟨s, -, t, -, rfl⟩ := hx
      obtain ⟨s', -, t', -, e⟩ := hx'
      simp only [Prod.mk.injEq] at e
      exact hcc (pyLatIndex_inj hne ((coordRows_inLat _ _).1 hc) ((coordRows_inLat _ _).1 hc') e.1.1.symm).1
  · intro i j s
    simp only [cellLines, List.mem_flatMap, List.mem_map, List.mem_filter, List.mem_finRange, true_and, decide_eq_true_eq, Prod.mk.injEq]
    constructor
    · rintro ⟨c, hc, s', t, ht, ⟨rfl, rfl⟩, rfl⟩
      obtain ⟨c', hc', rfl⟩ := cells_of_inLat ((coordRows_inLat _ _).1 hc)
      exact ⟨c', t, hc', ht, rfl, rfl⟩
    · rintro ⟨c, t, hc, ht, rfl, rfl⟩
      exact ⟨_, (coordRows_inLat _ _).2 (inLat_cells hc), s, t, ht, ⟨rfl, rfl⟩, rfl⟩

/-- **C100, interactions.** An interaction between the cell zero and another cell is drawn once if its element for spins up at both ends is not negligible, and not otherwise. The ends have
the indices and the places of the list of sites. -/
theorem C100_bonds [NeZero n] (hd : d ∈ [1, 2, 3]) (g : Geometry d n) {L : Fin d → ℕ} (hL : ∀ i, 0 < L i) (w : BareW n) :
    ∃ points lines bonds, g.sitesList (List.ofFn L) true 0 = some (points, lines) ∧ g.bareWList (List.ofFn L) w = some bonds ∧
      (bonds.map fun e => (e.fromIndex, e.toIndex)).Nodup ∧
      ∀ e, e ∈ bonds ↔ ∃ a b c, InCells L c ∧ IsDrawn (w 0 a 0 b (vec2Index (List.ofFn fun i => (L i : ℤ)) (List.ofFn c))) ∧ e.sub = a ∧ ∃ i j : ℕ, e.fromIndex = i ∧ e.toIndex = j ∧
        points[i]? = some (some ⟨e.fromVec, List.ofFn fun _ : Fin d => 0, a⟩) ∧ points[j]? = some (some ⟨e.toVec, List.ofFn c, b⟩) := by
  classical
  have hne := ofFn_ne hd L
  have h0 : InCells L fun _ => 0 := fun i => ⟨le_rfl, by have := hL i; simpa using this⟩
  have ho : (List.ofFn L).map (fun _ => (0 : ℤ)) = List.ofFn fun _ : Fin d => (0 : ℤ) := by rw [List.map_ofFn]; rfl
  have hs : (List.ofFn L).map (fun l : ℕ => (l : ℤ)) = List.ofFn fun i => (L i : ℤ) := by rw [List.map_ofFn]; rfl
  obtain ⟨points, lines, hp, -, hsite, hall⟩ := C100_sites hd g L true 0
  have hsite' : ∀ c, InCells L c → ∀ (s : Fin n) (i : ℕ), pyLatIndex (List.ofFn L) (List.ofFn c) s = i →
      points[i]? = some (some ⟨g.drawVec (List.ofFn L) (drawOffset (List.ofFn L) true) (List.ofFn c) 0 s, List.ofFn c, s⟩) := by
    intro c hc s i hi
    obtain ⟨j, h1, h2⟩ := hsite c hc s
    have : i = j := by exact_mod_cast hi.symm.trans h1
    rw [this, h2]
  have hdet : ∀ (c : Fin d → ℤ) (s : Fin n) v (i : ℕ), points[i]? = some (some ⟨v, List.ofFn c, s⟩) → pyLatIndex (List.ofFn L) (List.ofFn c) s = i ∧
      v = g.drawVec (List.ofFn L) (drawOffset (List.ofFn L) true) (List.ofFn c) 0 s := by
    intro c s v i h
    have hlt : i < points.length := by
      by_contra hi
      rw [List.getElem?_eq_none (by omega)] at h
      simp at h
    obtain ⟨⟨c1, s1⟩, ⟨hc1, hi1⟩, -⟩ := hall i hlt
    rw [hsite' c1 hc1 s1 i hi1] at h
    simp only [Option.some.injEq, DrawnSite.mk.injEq] at h
    obtain ⟨h1, h2, rfl⟩ := h
    rw [← h2]
    exact ⟨hi1, h1.symm⟩
  have hb : g.bareWList (List.ofFn L) w = some ((List.finRange n).flatMap fun a => (List.finRange n).flatMap fun b =>
      ((coordRows (List.ofFn L)).filter fun c => decide (IsDrawn (w 0 a 0 b (pyCoordiIndex ((List.ofFn L).map fun l : ℕ => (l : ℤ)) c)))).map fun c =>
        ⟨g.drawVec (List.ofFn L) (drawOffset (List.ofFn L) true) (List.ofFn fun _ : Fin d => 0) 0 a, g.drawVec (List.ofFn L) (drawOffset (List.ofFn L) true) c 0 b,
          pyLatIndex (List.ofFn L) (List.ofFn fun _ : Fin d => 0) a, pyLatIndex (List.ofFn L) c b, a⟩) := by
    unfold Geometry.bareWList allCoordi
    rw [if_pos (length_mem hd L), ho]
    rfl
  refine ⟨points, lines, _, hp, hb, ?_, fun e => ?_⟩
  · rw [List.map_flatMap, List.nodup_flatMap]
    constructor
    · intro a _
      rw [List.map_flatMap, List.nodup_flatMap]
      constructor
      · intro b _
        rw [List.map_map]
        refine List.Nodup.map_on ?_ ((coordRows_nodup hne).filter _)
        intro c hc c' hc' e
        simp only [Function.comp_apply, Prod.mk.injEq, true_and] at e
        exact (pyLatIndex_inj hne ((coordRows_inLat _ _).1 (List.mem_of_mem_filter hc)) ((coordRows_inLat _ _).1 (List.mem_of_mem_filter hc')) e).1
      · refine (List.nodup_finRange n).imp ?_
        intro b b' hb x hx hx'
        simp only [List.mem_map] at hx hx'
        obtain ⟨_, ⟨c, hc, rfl⟩, rfl⟩ := hx
        obtain ⟨_, ⟨c', hc', rfl⟩, e⟩ := hx'
        simp only [Prod.mk.injEq, true_and] at e
        exact hb (pyLatIndex_inj hne ((coordRows_inLat _ _).1 (List.mem_of_mem_filter hc)) ((coordRows_inLat _ _).1 (List.mem_of_mem_filter hc')) e.symm).2
    · refine (List.nodup_finRange n).imp ?_
      intro a a' ha x hx hx'
      simp only [List.mem_map, List.mem_flatMap] at hx hx'
      obtain ⟨_, ⟨b, -, c, hc, rfl⟩, rfl⟩ := hx
      obtain ⟨_, ⟨b', -, c', hc', rfl⟩, e⟩ := hx'
      simp only [Prod.mk.injEq] at e
      exact ha (pyLatIndex_inj hne (inLat_cells h0) (inLat_cells h0) e.1.symm).2
  · simp only [List.mem_flatMap, List.mem_finRange, true_and, List.mem_map, List.mem_filter, decide_eq_true_eq]
    constructor
    · rintro ⟨a, b, c, ⟨hc, hw⟩, rfl⟩
      obtain ⟨c', hc', rfl⟩ := cells_of_inLat ((coordRows_inLat _ _).1 hc)
      rw [hs, pyCoordi_eq] at hw
      obtain ⟨i, hi, hi'⟩ := hsite _ h0 a
      obtain ⟨j, hj, hj'⟩ := hsite _ hc' b
      exact ⟨a, b, c', hc', hw, rfl, i, j, hi, hj, hi', hj'⟩
    · rintro ⟨a, b, c, hc, hw, h1, i, j, hi, hj, hi', hj'⟩
      refine ⟨a, b, List.ofFn c, ⟨(coordRows_inLat _ _).2 (inLat_cells hc), by rwa [hs, pyCoordi_eq]⟩, ?_⟩
      obtain ⟨k1, k2⟩ := hdet _ _ _ _ hi'
      obtain ⟨k3, k4⟩ := hdet _ _ _ _ hj'
      rw [k1.trans hi.symm, k3.trans hj.symm, ← k2, ← k4, ← h1]

/-- **C100, threshold.** A real element is negligible up to 1/100000; the elements of the Heisenberg exchange are quarters of the coupling. -/
theorem C100_threshold (x : ℝ) : (IsDrawn (x : ℂ) ↔ 1 / 10 ^ 5 < |x|) ∧ ¬ IsDrawn (x * Complex.I) := by
  have h1 : (((x : ℂ) * x).re = x ^ 2) ∧ (((x : ℂ) * x).im = 0) := by simp [pow_two]
  have h2 : ((x : ℂ) * Complex.I * (x * Complex.I)).re = -x ^ 2 := by simp [pow_two]
  constructor
  · unfold IsDrawn
    rw [h1.1, h1.2]
    simp only [lt_irrefl, and_false, or_false]
    have e : (1 : ℝ) / 10 ^ 10 = (1 / 10 ^ 5) ^ 2 := by norm_num
    rw [e, sq_lt_sq, abs_of_pos (show (0 : ℝ) < 1 / 10 ^ 5 by norm_num)]
  · unfold IsDrawn
    rw [h2]
    have := sq_nonneg x
    rintro (h | h)
    · norm_num at h; linarith
    · have := h.1; norm_num at this; linarith

/-- **C100, Fourier transformation.** The loops over the list of sites give the sum over cells and sublattices of `latFourier`. -/
theorem C100_fourier (hd : d ∈ [1, 2, 3]) (g : Geometry d n) (L : Fin d → ℕ) (data : Fin n → Fin n → ℤ → ℂ) (K : Fin d → ℝ) :
    g.fourierLoop (List.ofFn L) data K =
      some (latFourier (L := L) g (fun a b c => data a b (vec2Index (List.ofFn fun i => (L i : ℤ)) (List.ofFn fun i => ((c i : ℕ) : ℤ)))) K) := by
  have hs : (List.ofFn L).map (fun l : ℕ => (l : ℤ)) = List.ofFn fun i => (L i : ℤ) := by rw [List.map_ofFn]; rfl
  have hid : ∀ {α : Type} (l : List α), (l.map some).mapM id = some l := by
    intro α l
    induction l with
    | nil => rfl
    | cons x l ih => rw [List.map_cons, List.mapM_cons, ih]; rfl
  have hpure : ∀ {α β : Type} (l : List α) (f : α → β), (l.mapM fun x => some (f x)) = some (l.map f) := by
    intro α β l f
    induction l with
    | nil => rfl
    | cons x l ih => rw [List.map_cons, List.mapM_cons, ih]; rfl
  unfold Geometry.fourierLoop
  simp only [sitesList_eq g (length_mem hd L), Option.bind_eq_bind, Option.bind_some, hid, hpure]
  rw [List.sum_flatten, List.map_map, latFourier]
  congr 2
  rw [← List.sum_toFinset _ (List.nodup_finRange n), List.toFinset_finRange]
  refine Finset.sum_congr rfl fun a _ => ?_
  rw [Function.comp_apply, Geometry.siteItems, List.map_flatMap, List.map_flatMap, List.flatMap_def, List.sum_flatten, List.map_map, hs]
  refine (rows_sum L _).trans (Finset.sum_congr rfl fun c _ => ?_)
  rw [Function.comp_apply, List.map_map, List.map_map, ← List.sum_toFinset _ (List.nodup_finRange n), List.toFinset_finRange]
  refine Finset.sum_congr rfl fun b _ => ?_
  simp only [Function.comp_apply, pyCoordi_eq]
  have e : g.drawVec (List.ofFn L) (drawOffset (List.ofFn L) false) (List.ofFn fun i => ((c i : ℕ) : ℤ)) a b = g.realVec c a b := by
    funext k
    simp only [Geometry.drawVec, Geometry.realVec, drawCell_ofFn]
    congr 2
    refine Finset.sum_congr rfl fun i _ => ?_
    have h1 : foldOnce (L i) (((c i : ℕ) : ℤ) + moveBy (L i) false) = ((c i : ℕ) : ℤ) := by
      have := (c i).2
      unfold foldOnce moveBy
      simp only [Bool.false_eq_true, if_false, add_zero]
      rw [if_neg (by omega), if_neg (by omega)]
    rw [h1]
    simp
  rw [e]

end

/-! ### What is not drawn -/

section
variable {d n : ℕ}

theorem addTerms_up {L : Fin d → ℤ} (l : List (Fin n × Fin n × (Fin d → ℤ) × PairMatrix)) (hl : ∀ t ∈ l, t.2.2.2 0 0 = 0) (w : BareW n) (hw : ∀ a b r, w 0 a 0 b r = 0) (a b : Fin n)
    (r : ℤ) : (addTerms L w l).1 0 a 0 b r = 0 := by
  induction l generalizing w with
  | nil => exact hw a b r
  | cons t l ih =>
    obtain ⟨i, j, e, m⟩ := t
    rw [addTerms]
    cases h : addTerm L w i j e m with
    | none => exact hw a b r
    | some w' =>
      refine ih (fun t ht => hl t (List.mem_cons_of_mem _ ht)) w' fun a b r => ?_
      unfold addTerm at h
      split at h
      · simp at h
      · simp only [Option.some.injEq] at h
        subst h
        have h1 : m 0 0 = 0 := hl (i, j, e, m) (List.mem_cons_self ..)
        simp only [hw, h1, add_zero, ite_self]

end

/-- **C100, refuted for the Kitaev model.** Couplings of the x and y components of the spins are not drawn: without coupling of the z components the list is empty. -/
theorem C100_refuted_kitaev {Lx Ly : ℕ} (J1 J2 : ℝ) : honeycombGeo.bareWList [Lx, Ly] (kitaevW "Honeycomb" Lx Ly [J1, J2, 0]).1 = some [] := by
  have hz : ∀ a b r, (kitaevW "Honeycomb" Lx Ly [J1, J2, 0]).1 0 a 0 b r = 0 := by
    intro a b r
    rw [kitaevW, if_pos rfl]
    refine addTerms_up _ ?_ _ (fun _ _ _ => rfl) a b r
    intro t ht
    simp only [List.mem_cons, List.not_mem_nil, or_false] at ht
    rcases ht with rfl | rfl | rfl | rfl | rfl | rfl <;> simp [SxSx, SySy, Sx, Sy]
  have hn : ¬ IsDrawn 0 := by
    unfold IsDrawn
    norm_num
  unfold Geometry.bareWList allCoordi
  simp [hz, hn]

/-- The couplings are there: the x bond of the cell zero has the element `J/4` for spin flips. -/
theorem C100_kitaev_coupled (J1 J2 : ℝ) : (kitaevW "Honeycomb" 4 4 [J1, J2, 0]).1 1 0 1 1 0 = J1 / 4 := by
  rw [kitaevW, if_pos rfl, addTerms_cons (p := 0) (by decide +kernel), addTerms_cons (p := 0) (by decide +kernel), addTerms_cons (p := 12) (by decide +kernel),
    addTerms_cons (p := 4) (by decide +kernel), addTerms_cons (p := 15) (by decide +kernel), addTerms_cons (p := 5) (by decide +kernel)]
  simp [addTerms, SxSx, Sx]
  ring

/-! ### Examples -/

theorem square_noOverlap : squareGeo.NoOverlap := by
  intro v a b h
  have h0 := congrFun h 0
  have h1 := congrFun h 1
  simp [Geometry.placeOf, squareGeo, Fin.sum_univ_two] at h0 h1
  refine ⟨?_, Subsingleton.elim _ _⟩
  funext i
  fin_cases i
  · exact h0
  · exact h1

theorem checkerboard_noOverlap : checkerboardGeo.NoOverlap := by
  intro v a b h
  have h0 := congrFun h 0
  have h1 := congrFun h 1
  simp only [Geometry.placeOf, checkerboardGeo, Fin.sum_univ_two, Pi.zero_apply] at h0 h1
  have key : ∀ t : ℤ, (v 0 : ℝ) + v 1 + t = 0 → (v 0 : ℝ) - v 1 = 0 → (t = 0 ∨ t = 1 ∨ t = -1) → v = 0 ∧ t = 0 := by
    intro t k0 k1 ht
    have k0' : v 0 + v 1 + t = 0 := by exact_mod_cast k0
    have k1' : v 0 - v 1 = 0 := by exact_mod_cast k1
    have ht0 : t = 0 := by omega
    refine ⟨?_, ht0⟩
    funext i
    fin_cases i <;> simp <;> omega
  fin_cases a <;> fin_cases b
  · exact ⟨(key 0 (by simpa using h0) (by simpa [sub_eq_add_neg] using h1) (by simp)).1, rfl⟩
  · exact absurd (key 1 (by simpa using h0) (by simpa [sub_eq_add_neg] using h1) (by simp)).2 (by norm_num)
  · exact absurd (key (-1) (by simpa [sub_eq_add_neg] using h0) (by simpa [sub_eq_add_neg] using h1) (by simp)).2 (by norm_num)
  · exact ⟨(key 0 (by simpa using h0) (by simpa [sub_eq_add_neg] using h1) (by simp)).1, rfl⟩

/-- `C100_distinct` and `C100_neighbours` on lattices of four by four cells. -/
example : checkerboardGeo.drawVec (List.ofFn ![4, 4]) (drawOffset (List.ofFn ![4, 4]) true) (List.ofFn ![3, 0]) 0 1 ≠
    checkerboardGeo.drawVec (List.ofFn ![4, 4]) (drawOffset (List.ofFn ![4, 4]) true) (List.ofFn ![3, 1]) 0 0 := by
  intro h
  rw [C100_distinct checkerboard_noOverlap (by intro i; fin_cases i <;> simp) (by intro i; fin_cases i <;> simp)] at h
  exact absurd h.2 (by decide)

example : squareGeo.drawVec (List.ofFn ![4, 4]) (drawOffset (List.ofFn ![4, 4]) true) (List.ofFn ![3, 0]) 0 0 -
    squareGeo.drawVec (List.ofFn ![4, 4]) (drawOffset (List.ofFn ![4, 4]) true) (List.ofFn fun _ : Fin 2 => 0) 0 0 = ![-1, 0] := by
  rw [C100_neighbours squareGeo (L := ![4, 4]) (by intro i; fin_cases i <;> simp) (by intro i; fin_cases i <;> simp) 0 0 0 ![-1, 0]
    (by intro i; fin_cases i <;> norm_num)]
  funext k
  fin_cases k <;> simp [Geometry.placeOf, squareGeo, Fin.sum_univ_two]

/-- The list of a lattice of two by two cells with two sublattices has eight sites; the last one is the second site of the last cell. -/
example : ∃ points lines, checkerboardGeo.sitesList [2, 2] true 0 = some (points, lines) ∧ points.length = 8 ∧ lines.length = 12 ∧
    ∃ v, points[7]? = some (some ⟨v, [1, 1], 1⟩) := by
  refine ⟨_, _, sitesList_eq _ (by decide) _ _, rfl, rfl, _, rfl⟩

end Feyn
