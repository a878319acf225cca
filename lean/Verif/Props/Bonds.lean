import Verif.Proof.BondsLat

/-!
# The bare interaction of the spin models (C66)
-/

set_option linter.unusedSimpArgs false
set_option linter.unnecessarySeqFocus false

namespace Feyn

variable {d n : ℕ}

/-- C66, spin part: the matrix used is that of the product of two spins one half, and exchanges two opposite spins or keeps both. -/
theorem C66_spin (s t u v : Fin 2) :
    SS (pairIndex s t) (pairIndex u v) = spinDot s t u v ∧
      spinDot s t u v = (if s = v ∧ t = u then 1 / 2 else 0) - (if s = t ∧ u = v then 1 / 4 else 0) := by
  refine ⟨SS_eq s t u v, ?_⟩
  fin_cases s <;> fin_cases t <;> fin_cases u <;> fin_cases v <;> simp [spinDot, pauli, Fin.sum_univ_three] <;> ring_nf <;> simp <;> norm_num

/-- C66: Square lattice. -/
theorem C66_square {Lx Ly : ℤ} (hx : 2 ≤ Lx) (hy : 2 ≤ Ly) (J1 J2 J3 : ℂ) :
    ((square Lx Ly).bareW ![Lx, Ly] J1 J2 J3).2 = true ∧ IsExchange ![Lx, Ly] ((square Lx Ly).bareW ![Lx, Ly] J1 J2 J3).1 (fun a b v =>
      onBonds J1 (squareGeo.neighbour 1 a b) v + onBonds J2 (squareGeo.neighbour 2 a b) v) := by
  have h := bareW_exchange (L := ![Lx, Ly]) (by norm_num) (fun i => by fin_cases i <;> simp <;> omega) (square Lx Ly) (B1 := squareB1) (B2 := squareB2) (B3 := fun _ _ => [])
    (fun a b => by fin_cases a <;> fin_cases b <;> simp [square, squareB1, Folds, Fin.forall_fin_two] <;> omega)
    (fun a b => by fin_cases a <;> fin_cases b <;> simp [square, squareB2, Folds, Fin.forall_fin_two] <;> omega)
    (fun a b => by fin_cases a <;> fin_cases b <;> exact List.Forall₂.nil)
    (by decide +kernel) (by decide +kernel) (by decide +kernel) square_shells.1
    square_shells.2 (p3 := fun _ _ _ => False) (fun a b v => by simp) J1 J2 J3
  simpa [onBonds] using h

/-- C66: Checkerboard lattice (the square lattice with two sublattices). -/
theorem C66_checkerboard {Lx Ly : ℤ} (hx : 2 ≤ Lx) (hy : 2 ≤ Ly) (J1 J2 J3 : ℂ) :
    ((checkerboard Lx Ly).bareW ![Lx, Ly] J1 J2 J3).2 = true ∧ IsExchange ![Lx, Ly] ((checkerboard Lx Ly).bareW ![Lx, Ly] J1 J2 J3).1 (fun a b v =>
      onBonds J1 (checkerboardGeo.neighbour 1 a b) v + onBonds J2 (checkerboardGeo.neighbour 2 a b) v) := by
  have h := bareW_exchange (L := ![Lx, Ly]) (by norm_num) (fun i => by fin_cases i <;> simp <;> omega) (checkerboard Lx Ly) (B1 := checkerboardB1) (B2 := checkerboardB2) (B3 := fun _ _ => [])
    (fun a b => by fin_cases a <;> fin_cases b <;> simp [checkerboard, checkerboardB1, Folds, Fin.forall_fin_two] <;> omega)
    (fun a b => by fin_cases a <;> fin_cases b <;> simp [checkerboard, checkerboardB2, Folds, Fin.forall_fin_two] <;> omega)
    (fun a b => by fin_cases a <;> fin_cases b <;> exact List.Forall₂.nil)
    (by decide +kernel) (by decide +kernel) (by decide +kernel) checkerboard_shells.1
    checkerboard_shells.2 (p3 := fun _ _ _ => False) (fun a b v => by simp) J1 J2 J3
  simpa [onBonds] using h

/-- C66: Triangular lattice. -/
theorem C66_triangular {Lx Ly : ℤ} (hx : 3 ≤ Lx) (hy : 3 ≤ Ly) (J1 J2 J3 : ℂ) :
    ((triangular Lx Ly).bareW ![Lx, Ly] J1 J2 J3).2 = true ∧ IsExchange ![Lx, Ly] ((triangular Lx Ly).bareW ![Lx, Ly] J1 J2 J3).1 (fun a b v =>
      onBonds J1 (triangularGeo.neighbour 1 a b) v + onBonds J2 (triangularGeo.neighbour 2 a b) v) := by
  have h := bareW_exchange (L := ![Lx, Ly]) (by norm_num) (fun i => by fin_cases i <;> simp <;> omega) (triangular Lx Ly) (B1 := triangularB1) (B2 := triangularB2) (B3 := fun _ _ => [])
    (fun a b => by fin_cases a <;> fin_cases b <;> simp [triangular, triangularB1, Folds, Fin.forall_fin_two] <;> omega)
    (fun a b => by fin_cases a <;> fin_cases b <;> simp [triangular, triangularB2, Folds, Fin.forall_fin_two] <;> omega)
    (fun a b => by fin_cases a <;> fin_cases b <;> exact List.Forall₂.nil)
    (by decide +kernel) (by decide +kernel) (by decide +kernel) triangular_shells.1
    triangular_shells.2 (p3 := fun _ _ _ => False) (fun a b v => by simp) J1 J2 J3
  simpa [onBonds] using h

/-- C66: Triangular lattice with three sublattices. Next nearest neighbours get nothing: see `C66_refuted_asymmetric`. -/
theorem C66_asymmetric_partial {Lx Ly : ℤ} (hx : 2 ≤ Lx) (hy : 2 ≤ Ly) (J1 J2 J3 : ℂ) :
    ((asymmetric Lx Ly).bareW ![Lx, Ly] J1 J2 J3).2 = true ∧ IsExchange ![Lx, Ly] ((asymmetric Lx Ly).bareW ![Lx, Ly] J1 J2 J3).1 (fun a b v =>
      onBonds J1 (asymmetricGeo.neighbour 1 a b) v) := by
  have h := bareW_exchange (L := ![Lx, Ly]) (by norm_num) (fun i => by fin_cases i <;> simp <;> omega) (asymmetric Lx Ly) (B1 := asymmetricB1) (B2 := fun _ _ => []) (B3 := fun _ _ => [])
    (fun a b => by fin_cases a <;> fin_cases b <;> simp [asymmetric, asymmetricB1, Folds, Fin.forall_fin_two] <;> omega)
    (fun a b => by fin_cases a <;> fin_cases b <;> exact List.Forall₂.nil)
    (fun a b => by fin_cases a <;> fin_cases b <;> exact List.Forall₂.nil)
    (by decide +kernel) (by decide +kernel) (by decide +kernel) asymmetric_shells.1
    (p2 := fun _ _ _ => False) (fun a b v => by simp) (p3 := fun _ _ _ => False) (fun a b v => by simp) J1 J2 J3
  simpa [onBonds] using h

/-- C66: Honeycomb lattice. -/
theorem C66_honeycomb {Lx Ly : ℤ} (hx : 2 ≤ Lx) (hy : 2 ≤ Ly) (J1 J2 J3 : ℂ) :
    ((honeycomb Lx Ly).bareW ![Lx, Ly] J1 J2 J3).2 = true ∧ IsExchange ![Lx, Ly] ((honeycomb Lx Ly).bareW ![Lx, Ly] J1 J2 J3).1 (fun a b v =>
      onBonds J1 (honeycombGeo.neighbour 1 a b) v + onBonds J2 (honeycombGeo.neighbour 2 a b) v) := by
  have h := bareW_exchange (L := ![Lx, Ly]) (by norm_num) (fun i => by fin_cases i <;> simp <;> omega) (honeycomb Lx Ly) (B1 := honeycombB1) (B2 := honeycombB2) (B3 := fun _ _ => [])
    (fun a b => by fin_cases a <;> fin_cases b <;> simp [honeycomb, honeycombB1, Folds, Fin.forall_fin_two] <;> omega)
    (fun a b => by fin_cases a <;> fin_cases b <;> simp [honeycomb, honeycombB2, Folds, Fin.forall_fin_two] <;> omega)
    (fun a b => by fin_cases a <;> fin_cases b <;> exact List.Forall₂.nil)
    (by decide +kernel) (by decide +kernel) (by decide +kernel) honeycomb_shells.1
    honeycomb_shells.2 (p3 := fun _ _ _ => False) (fun a b v => by simp) J1 J2 J3
  simpa [onBonds] using h

/-- C66: Kagome lattice; the third coupling is for the third neighbours across a hexagon. -/
theorem C66_kagome {Lx Ly : ℤ} (hx : 2 ≤ Lx) (hy : 2 ≤ Ly) (J1 J2 J3 : ℂ) :
    ((kagome Lx Ly).bareW ![Lx, Ly] J1 J2 J3).2 = true ∧ IsExchange ![Lx, Ly] ((kagome Lx Ly).bareW ![Lx, Ly] J1 J2 J3).1 (fun a b v =>
      onBonds J1 (kagomeGeo.neighbour 1 a b) v + onBonds J2 (kagomeGeo.neighbour 2 a b) v +
        onBonds J3 (fun v => kagomeGeo.neighbour 3 a b v ∧ ¬ kagomeGeo.straight a b v) v) := by
  have h := bareW_exchange (L := ![Lx, Ly]) (by norm_num) (fun i => by fin_cases i <;> simp <;> omega) (kagome Lx Ly) (B1 := kagomeB1) (B2 := kagomeB2) (B3 := kagomeB3)
    (fun a b => by fin_cases a <;> fin_cases b <;> simp [kagome, kagomeB1, Folds, Fin.forall_fin_two] <;> omega)
    (fun a b => by fin_cases a <;> fin_cases b <;> simp [kagome, kagomeB2, Folds, Fin.forall_fin_two] <;> omega)
    (fun a b => by fin_cases a <;> fin_cases b <;> simp [kagome, kagomeB3, Folds, Fin.forall_fin_two] <;> omega)
    (by decide +kernel) (by decide +kernel) (by decide +kernel) kagome_shells.1
    kagome_shells.2.1 kagome_shells.2.2 J1 J2 J3
  exact h

/-- C66: Cubic lattice. Next nearest neighbours get nothing: see `C66_refuted_cubic`. -/
theorem C66_cubic_partial {Lx Ly Lz : ℤ} (hx : 2 ≤ Lx) (hy : 2 ≤ Ly) (hz : 2 ≤ Lz) (J1 J2 J3 : ℂ) :
    ((cubic Lx Ly Lz).bareW ![Lx, Ly, Lz] J1 J2 J3).2 = true ∧ IsExchange ![Lx, Ly, Lz] ((cubic Lx Ly Lz).bareW ![Lx, Ly, Lz] J1 J2 J3).1 (fun a b v =>
      onBonds J1 (cubicGeo.neighbour 1 a b) v) := by
  have h := bareW_exchange (L := ![Lx, Ly, Lz]) (by norm_num) (fun i => by fin_cases i <;> simp <;> omega) (cubic Lx Ly Lz) (B1 := cubicB1) (B2 := fun _ _ => []) (B3 := fun _ _ => [])
    (fun a b => by fin_cases a <;> fin_cases b <;> simp [cubic, cubicB1, Folds, Fin.forall_fin_succ] <;> omega)
    (fun a b => by fin_cases a <;> fin_cases b <;> exact List.Forall₂.nil)
    (fun a b => by fin_cases a <;> fin_cases b <;> exact List.Forall₂.nil)
    (by decide +kernel) (by decide +kernel) (by decide +kernel) cubic_shells.1
    (p2 := fun _ _ _ => False) (fun a b v => by simp) (p3 := fun _ _ _ => False) (fun a b v => by simp) J1 J2 J3
  simpa [onBonds] using h

/-- C66: Cubic lattice with two sublattices. -/
theorem C66_checkerboard3 {Lx Ly Lz : ℤ} (hx : 2 ≤ Lx) (hy : 2 ≤ Ly) (hz : 2 ≤ Lz) (J1 J2 J3 : ℂ) :
    ((checkerboard3 Lx Ly Lz).bareW ![Lx, Ly, Lz] J1 J2 J3).2 = true ∧ IsExchange ![Lx, Ly, Lz] ((checkerboard3 Lx Ly Lz).bareW ![Lx, Ly, Lz] J1 J2 J3).1 (fun a b v =>
      onBonds J1 (checkerboard3Geo.neighbour 1 a b) v + onBonds J2 (checkerboard3Geo.neighbour 2 a b) v) := by
  have h := bareW_exchange (L := ![Lx, Ly, Lz]) (by norm_num) (fun i => by fin_cases i <;> simp <;> omega) (checkerboard3 Lx Ly Lz) (B1 := checkerboard3B1) (B2 := checkerboard3B2) (B3 := fun _ _ => [])
    (fun a b => by fin_cases a <;> fin_cases b <;> simp [checkerboard3, checkerboard3B1, Folds, Fin.forall_fin_succ] <;> omega)
    (fun a b => by fin_cases a <;> fin_cases b <;> simp [checkerboard3, checkerboard3B2, Folds, Fin.forall_fin_succ] <;> omega)
    (fun a b => by fin_cases a <;> fin_cases b <;> exact List.Forall₂.nil)
    (by decide +kernel) (by decide +kernel) (by decide +kernel) checkerboard3_shells.1
    checkerboard3_shells.2 (p3 := fun _ _ _ => False) (fun a b v => by simp) J1 J2 J3
  simpa [onBonds] using h

/-- C66: Pyrochlore lattice; the third coupling is for the third neighbours along a chain. -/
theorem C66_pyrochlore {Lx Ly Lz : ℤ} (hx : 2 ≤ Lx) (hy : 2 ≤ Ly) (hz : 2 ≤ Lz) (J1 J2 J3 : ℂ) :
    ((pyrochlore Lx Ly Lz).bareW ![Lx, Ly, Lz] J1 J2 J3).2 = true ∧ IsExchange ![Lx, Ly, Lz] ((pyrochlore Lx Ly Lz).bareW ![Lx, Ly, Lz] J1 J2 J3).1 (fun a b v =>
      onBonds J1 (pyrochloreGeo.neighbour 1 a b) v + onBonds J2 (pyrochloreGeo.neighbour 2 a b) v +
        onBonds J3 (fun v => pyrochloreGeo.neighbour 3 a b v ∧ pyrochloreGeo.straight a b v) v) := by
  have h := bareW_exchange (L := ![Lx, Ly, Lz]) (by norm_num) (fun i => by fin_cases i <;> simp <;> omega) (pyrochlore Lx Ly Lz) (B1 := pyrochloreB1) (B2 := pyrochloreB2) (B3 := pyrochloreB3)
    (fun a b => by fin_cases a <;> fin_cases b <;> simp [pyrochlore, pyrochloreB1, Folds, Fin.forall_fin_succ] <;> omega)
    (fun a b => by fin_cases a <;> fin_cases b <;> simp [pyrochlore, pyrochloreB2, Folds, Fin.forall_fin_succ] <;> omega)
    (fun a b => by fin_cases a <;> fin_cases b <;> simp [pyrochlore, pyrochloreB3, Folds, Fin.forall_fin_succ] <;> omega)
    (by decide +kernel) (by decide +kernel) (by decide +kernel) pyrochlore_shells.1
    pyrochlore_shells.2.1 pyrochlore_shells.2.2 J1 J2 J3
  exact h

/-- C66: chain with at least two sites. -/
theorem C66_chain {Lx : ℤ} (hx : 2 ≤ Lx) (J1 J2 : ℂ) :
    (chainW Lx J1 J2).2 = true ∧ IsExchange ![Lx] (chainW Lx J1 J2).1 (fun a b v =>
      onBonds J1 (chainGeo.neighbour 1 a b) v + onBonds J2 (chainGeo.neighbour 2 a b) v) := by
  have h : ∀ t : Neighbours 1 1, (∀ a b, List.Forall₂ (Folds ![Lx]) (t.nn a b) (chainB1 a b)) → (∀ a b, List.Forall₂ (Folds ![Lx]) (t.nnn a b) (chainB2 a b)) →
      (∀ a b, t.nnnn a b = []) → (t.bareW ![Lx] J1 J2 0).2 = true ∧ IsExchange ![Lx] (t.bareW ![Lx] J1 J2 0).1 (fun a b v =>
      onBonds J1 (chainGeo.neighbour 1 a b) v + onBonds J2 (chainGeo.neighbour 2 a b) v) := by
    intro t h1 h2 h3
    have h := bareW_exchange (L := ![Lx]) (by norm_num) (fun i => by fin_cases i; simp; omega) t (B1 := chainB1) (B2 := chainB2) (B3 := fun _ _ => [])
      h1 h2 (fun a b => by rw [h3]; exact List.Forall₂.nil) (by decide +kernel) (by decide +kernel) (by decide +kernel) chain_shells.1 chain_shells.2
      (p3 := fun _ _ _ => False) (fun a b v => by simp) J1 J2 0
    simpa [onBonds] using h
  rw [chainW, chain]
  split_ifs with h2 h2
  · exact h _ (fun a b => by simp [chainB1, Folds]; omega) (fun a b => by simp [chainB2, Folds]; omega) (fun _ _ => rfl)
  · exact h _ (fun a b => by simp [chainB1, Folds]; omega) (fun a b => by simp [chainB2, Folds]; omega) (fun _ _ => rfl)
  · omega

/-- C66: the square lattice with valence bonds. The first coupling is for the nearest neighbours in the same cell and in the cells to the left and to the right, the second for
the nearest neighbours in the cells above and below, and the fourth comes in addition for those in the same cell. -/
theorem C66_valence {Lx Ly : ℤ} (hx : 2 ≤ Lx) (hy : 2 ≤ Ly) (J1 J2 J4 : ℂ) :
    (valenceW Lx Ly J1 J2 J4).2 = true ∧ IsExchange ![Lx, Ly] (valenceW Lx Ly J1 J2 J4).1 (fun a b v =>
      onBonds J1 (fun v => valenceGeo.neighbour 1 a b v ∧ v 1 = 0) v + onBonds J2 (fun v => valenceGeo.neighbour 1 a b v ∧ v 1 ≠ 0) v +
        onBonds J4 (fun v => valenceGeo.neighbour 1 a b v ∧ v = 0) v) := by
  have h1 : ∀ a b v, (valenceGeo.neighbour 1 a b v ∧ v 1 = 0) ↔ v ∈ (valenceB1 a b).filter (fun v => v 1 = 0) := fun a b v => by
    rw [valence_shells.1, List.mem_filter]; simp
  have h2 : ∀ a b v, (valenceGeo.neighbour 1 a b v ∧ v 1 ≠ 0) ↔ v ∈ (valenceB1 a b).filter (fun v => v 1 ≠ 0) := fun a b v => by
    rw [valence_shells.1, List.mem_filter]; simp
  have h3 : ∀ a b v, (valenceGeo.neighbour 1 a b v ∧ v = 0) ↔ v ∈ (valenceB1 a b).filter (fun v => v = 0) := fun a b v => by
    rw [valence_shells.1, List.mem_filter]; simp
  have hb := bareW_exchange (L := ![Lx, Ly]) (by norm_num) (fun i => by fin_cases i <;> simp <;> omega)
    ⟨(valence Lx Ly).nn, (valence Lx Ly).nnn, fun a b => if a = b then [] else [![0, 0]]⟩ (B1 := fun a b => (valenceB1 a b).filter (fun v => v 1 = 0))
    (B2 := fun a b => (valenceB1 a b).filter (fun v => v 1 ≠ 0)) (B3 := fun a b => (valenceB1 a b).filter (fun v => v = 0))
    (fun a b => by fin_cases a <;> fin_cases b <;> simp [valence, valenceB1, Folds, Fin.forall_fin_two, List.filter] <;> omega)
    (fun a b => by fin_cases a <;> fin_cases b <;> simp [valence, valenceB1, Folds, Fin.forall_fin_two, List.filter] <;> omega)
    (fun a b => by fin_cases a <;> fin_cases b <;> simp [valence, valenceB1, Folds, Fin.forall_fin_two, List.filter] <;> omega)
    (by decide +kernel) (by decide +kernel) (by decide +kernel) h1 h2 h3 J1 J2 J4
  have hL : ∀ i, 0 < (![Lx, Ly] : Fin 2 → ℤ) i := fun i => by fin_cases i <;> simp <;> omega
  have m1 : ∀ x ∈ (valence Lx Ly).bonds J1 J2 0 ++ [(0, 1, ![0, 0], J4), (1, 0, ![0, 0], J4)], ∀ i, 0 ≤ x.2.2.1 i ∧ x.2.2.1 i < (![Lx, Ly] : Fin 2 → ℤ) i := by
    intro x hx
    rcases List.mem_append.1 hx with hx | hx
    · have hf : ∀ a b, ∀ e ∈ (valence Lx Ly).nn a b ++ (valence Lx Ly).nnn a b, ∀ i, 0 ≤ e i ∧ e i < (![Lx, Ly] : Fin 2 → ℤ) i := by
        intro a b
        fin_cases a <;> fin_cases b <;> simp [valence, Fin.forall_fin_two] <;> omega
      rcases mem_bonds hx with h | h | h
      · exact hf _ _ _ (List.mem_append_left _ h)
      · exact hf _ _ _ (List.mem_append_right _ h)
      · simp [valence] at h
    · rcases List.mem_cons.1 hx with rfl | hx
      · simp [Fin.forall_fin_two]; omega
      · rw [List.mem_singleton] at hx
        subst hx
        simp [Fin.forall_fin_two]; omega
  obtain ⟨g1, g2⟩ := addBonds_eq (L := ![Lx, Ly]) (by norm_num) hL _ m1 (fun _ _ _ _ _ => 0)
  have m2 : ∀ x ∈ Neighbours.bonds ⟨(valence Lx Ly).nn, (valence Lx Ly).nnn, fun a b => if a = b then [] else [![0, 0]]⟩ J1 J2 J4,
      ∀ i, 0 ≤ x.2.2.1 i ∧ x.2.2.1 i < (![Lx, Ly] : Fin 2 → ℤ) i := by
    intro x hx
    have hf : ∀ a b, ∀ e ∈ (valence Lx Ly).nn a b ++ (valence Lx Ly).nnn a b, ∀ i, 0 ≤ e i ∧ e i < (![Lx, Ly] : Fin 2 → ℤ) i := by
      intro a b
      fin_cases a <;> fin_cases b <;> simp [valence, Fin.forall_fin_two] <;> omega
    rcases mem_bonds hx with h | h | h
    · exact hf _ _ _ (List.mem_append_left _ h)
    · exact hf _ _ _ (List.mem_append_right _ h)
    · simp only at h
      split_ifs at h
      · simp at h
      · rw [List.mem_singleton] at h
        rw [h]
        simp [Fin.forall_fin_two]; omega
  obtain ⟨-, f2⟩ := addBonds_eq (L := ![Lx, Ly]) (by norm_num) hL _ m2 (fun _ _ _ _ _ => 0)
  refine ⟨g1, fun r hr s t u v a b => ?_⟩
  rw [← hb.2 r hr s t u v a b, Neighbours.bareW, f2 r hr, valenceW, g2 r hr, List.map_append, List.sum_append, sum_bonds, sum_bonds]
  congr 2
  fin_cases a <;> fin_cases b <;> simp [valence]

/-- Neighbours are neighbours of each other. -/
theorem neighbour_swap (g : Geometry d n) (k : ℕ) (a b : Fin n) (v : Fin d → ℤ) : g.neighbour k a b v ↔ g.neighbour k b a (-v) := by
  have : g.dist2 a b v = g.dist2 b a (-v) := by
    refine Finset.sum_congr rfl fun k _ => ?_
    have : g.disp b a (-v) k = - g.disp a b v k := by simp [Geometry.disp]; ring
    rw [this]; ring
  rw [Geometry.neighbour, Geometry.neighbour, this]

/-- C66: with an exchange that is the same in both directions the table is symmetric: the element for the two ends and the lattice vector between them is that for the
exchanged ends and the opposite vector. -/
theorem C66_swap {L : Fin d → ℤ} {w : BareW n} {J : Fin n → Fin n → (Fin d → ℤ) → ℂ} (h : IsExchange L w J) (hJ : ∀ a b v, J a b v = J b a (-v))
    {r r' : Fin d → ℤ} (hr : ∀ i, 0 ≤ r i ∧ r i < L i) (hr' : ∀ i, 0 ≤ r' i ∧ r' i < L i) (ho : ∀ i, r' i ≡ - r i [ZMOD L i]) (s t u v : Fin 2) (a b : Fin n) :
    w (pairIndex s t) a (pairIndex u v) b (vec2Index (List.ofFn L) (List.ofFn r)) = w (pairIndex u v) b (pairIndex s t) a (vec2Index (List.ofFn L) (List.ofFn r')) := by
  rw [h r hr, h r' hr']
  congr 1
  · rw [images, images, ← finsum_comp_equiv (Equiv.neg (Fin d → ℤ)) (f := fun v => if ∀ i, v i ≡ r' i [ZMOD L i] then J b a v else 0)]
    refine finsum_congr fun v => ?_
    have : (∀ i, v i ≡ r i [ZMOD L i]) ↔ ∀ i, (Equiv.neg (Fin d → ℤ) v) i ≡ r' i [ZMOD L i] := by
      refine forall_congr' fun i => ?_
      simp only [Equiv.neg_apply, Pi.neg_apply]
      constructor
      · intro h; exact h.neg.trans (ho i).symm
      · intro h; simpa using (h.trans (ho i)).neg
    simp only [this, Equiv.neg_apply]
    rw [hJ]
  · simp only [spinDot]
    exact Finset.sum_congr rfl fun k _ => mul_comm _ _

/-- The sum over the images of finitely many bonds. -/
theorem images_eq {L r : Fin d → ℤ} (J : ℂ) {B : List (Fin d → ℤ)} (hB : B.Nodup) {p : (Fin d → ℤ) → Prop} (hp : ∀ v, p v ↔ v ∈ B) :
    images L r (onBonds J p) = (B.map fun v => if ∀ i, (v i - r i) % L i = 0 then J else 0).sum := by
  classical
  have hc : ∀ v : Fin d → ℤ, (∀ i, v i ≡ r i [ZMOD L i]) ↔ ∀ i, (v i - r i) % L i = 0 := fun v =>
    forall_congr' fun i => Int.emod_eq_emod_iff_emod_sub_eq_zero
  have hs : (Function.support fun v => if ∀ i, v i ≡ r i [ZMOD L i] then onBonds J p v else 0) ⊆ (B.toFinset : Set (Fin d → ℤ)) := by
    intro v hv
    rw [Function.mem_support] at hv
    simp only [List.coe_toFinset, Set.mem_ofPred_eq]
    rw [← hp]
    by_contra hc
    exact hv (by simp [onBonds, hc])
  rw [images, finsum_eq_sum_of_support_subset _ hs, List.sum_toFinset _ hB]
  congr 1
  refine List.map_congr_left fun v hv => ?_
  simp only [hc, onBonds, (hp v).2 hv, if_true]

theorem fin_onBonds {L r : Fin d → ℤ} (J : ℂ) {B : List (Fin d → ℤ)} {p : (Fin d → ℤ) → Prop} (hp : ∀ v, p v ↔ v ∈ B) :
    (Function.support fun v => if ∀ i, v i ≡ r i [ZMOD L i] then onBonds J p v else 0).Finite := by
  classical
  refine (Finset.finite_toSet B.toFinset).subset fun v hv => ?_
  rw [Function.mem_support] at hv
  simp only [List.coe_toFinset, Set.mem_ofPred_eq]
  rw [← hp]
  by_contra hc
  exact hv (by simp [onBonds, hc])

/-- The same for two kinds of bonds. -/
theorem images_eq2 {L r : Fin d → ℤ} (J J' : ℂ) {B B' : List (Fin d → ℤ)} (hB : B.Nodup) (hB' : B'.Nodup) {p p' : (Fin d → ℤ) → Prop} (hp : ∀ v, p v ↔ v ∈ B)
    (hp' : ∀ v, p' v ↔ v ∈ B') : images L r (fun v => onBonds J p v + onBonds J' p' v) =
      (B.map fun v => if ∀ i, (v i - r i) % L i = 0 then J else 0).sum + (B'.map fun v => if ∀ i, (v i - r i) % L i = 0 then J' else 0).sum := by
  rw [images_add (fin_onBonds J hp) (fin_onBonds J' hp'), images_eq J hB hp, images_eq J' hB' hp']

theorem spinDot_dd : spinDot 0 0 0 0 = 1 / 4 := by rw [(C66_spin 0 0 0 0).2]; norm_num

/-- Value of the table after one statement more. -/
theorem addBonds_cons {L : Fin d → ℤ} {w : BareW n} {i j : Fin n} {e : Fin d → ℤ} {J : ℂ} {l : List (Fin n × Fin n × (Fin d → ℤ) × ℂ)} {p : ℤ}
    (h : npIndex (latVol (List.ofFn L)) (vec2Index (List.ofFn L) (List.ofFn e)) = some p) :
    addBonds L w ((i, j, e, J) :: l) = addBonds L (fun α a β b r => if a = i ∧ b = j ∧ r = p then w α a β b r + J * SS α β else w α a β b r) l := by
  rw [addBonds, addBond, h]

theorem addBonds_stop {L : Fin d → ℤ} {w : BareW n} {i j : Fin n} {e : Fin d → ℤ} {J : ℂ} {l : List (Fin n × Fin n × (Fin d → ℤ) × ℂ)}
    (h : npIndex (latVol (List.ofFn L)) (vec2Index (List.ofFn L) (List.ofFn e)) = none) : addBonds L w ((i, j, e, J) :: l) = (w, false) := by
  rw [addBonds, addBond, h]

/-- C66 refuted for a lattice that is one cell wide: the neighbours in the narrow direction are added to those in the other direction, and the construction is given up
(with a message) at the next nearest neighbours. -/
theorem C66_refuted_strip {J1 : ℂ} (hJ : J1 ≠ 0) :
    ((square 3 1).bareW ![3, 1] J1 0 0).2 = false ∧ ¬ IsExchange ![3, 1] ((square 3 1).bareW ![3, 1] J1 0 0).1 (fun a b v =>
      onBonds J1 (squareGeo.neighbour 1 a b) v + onBonds 0 (squareGeo.neighbour 2 a b) v) := by
  have hb : (square 3 1).bonds J1 0 0 = [(0, 0, ![0, 1], J1), (0, 0, ![1, 0], J1), (0, 0, ![2, 0], J1), (0, 0, ![0, 0], J1),
      (0, 0, ![1, 1], 0), (0, 0, ![2, 1], 0), (0, 0, ![1, 0], 0), (0, 0, ![2, 0], 0)] := by
    simp [Neighbours.bonds, square, List.finRange]
  rw [Neighbours.bareW, hb, addBonds_cons (p := 1) (by decide +kernel), addBonds_cons (p := 1) (by decide +kernel), addBonds_cons (p := 2) (by decide +kernel),
    addBonds_cons (p := 0) (by decide +kernel), addBonds_cons (p := 2) (by decide +kernel), addBonds_stop (by decide +kernel)]
  refine ⟨rfl, fun h => ?_⟩
  have h1 := h ![1, 0] (by simp) 0 0 0 0 0 0
  have e0 : onBonds (d := 2) 0 (squareGeo.neighbour 2 0 0) = fun _ => 0 := by funext v; simp [onBonds]
  have e1 : images ![3, 1] ![1, 0] (onBonds J1 (squareGeo.neighbour 1 0 0)) = J1 := by
    rw [images_eq J1 (B := squareB1 0 0) (by decide +kernel) (square_shells.1 0 0)]
    simp [squareB1]
  have hv : vec2Index (List.ofFn ![3, 1]) (List.ofFn ![1, 0]) = 1 := by decide +kernel
  rw [hv, spinDot_dd] at h1
  simp only [e0, add_zero] at h1
  rw [show (images ![3, 1] ![1, 0] fun v => onBonds J1 (squareGeo.neighbour 1 0 0) v) = J1 from e1, (C66_spin 0 0 0 0).1, spinDot_dd] at h1
  norm_num at h1
  exact hJ h1

/-- C66 refuted for a triangular lattice that is two cells wide: the construction is given up (with a message) in the middle of the list of next nearest neighbours. -/
theorem C66_refuted_triangular {J1 J2 : ℂ} (hJ : J2 ≠ 0) :
    ((triangular 2 2).bareW ![2, 2] J1 J2 0).2 = false ∧ ¬ IsExchange ![2, 2] ((triangular 2 2).bareW ![2, 2] J1 J2 0).1 (fun a b v =>
      onBonds J1 (triangularGeo.neighbour 1 a b) v + onBonds J2 (triangularGeo.neighbour 2 a b) v) := by
  have hb : (triangular 2 2).bonds J1 J2 0 = [(0, 0, ![0, 1], J1), (0, 0, ![1, 0], J1), (0, 0, ![1, 1], J1), (0, 0, ![0, 1], J1), (0, 0, ![1, 0], J1), (0, 0, ![1, 1], J1),
      (0, 0, ![1, 1], J2), (0, 0, ![2, 1], J2), (0, 0, ![1, 0], J2), (0, 0, ![1, 1], J2), (0, 0, ![0, 1], J2), (0, 0, ![1, 2], J2)] := by
    simp [Neighbours.bonds, triangular, List.finRange]
  rw [Neighbours.bareW, hb, addBonds_cons (p := 1) (by decide +kernel), addBonds_cons (p := 2) (by decide +kernel), addBonds_cons (p := 3) (by decide +kernel),
    addBonds_cons (p := 1) (by decide +kernel), addBonds_cons (p := 2) (by decide +kernel), addBonds_cons (p := 3) (by decide +kernel),
    addBonds_cons (p := 3) (by decide +kernel), addBonds_stop (by decide +kernel)]
  refine ⟨rfl, fun h => ?_⟩
  have h1 := h ![0, 1] (by simp) 0 0 0 0 0 0
  have hv : vec2Index (List.ofFn ![2, 2]) (List.ofFn ![0, 1]) = 1 := by decide +kernel
  simp only [hv, (C66_spin 0 0 0 0).1, spinDot_dd] at h1
  rw [images_eq2 J1 J2 (B := triangularB1 0 0) (B' := triangularB2 0 0) (by decide +kernel) (by decide +kernel)
    (triangular_shells.1 0 0) (triangular_shells.2 0 0)] at h1
  simp [triangularB1, triangularB2] at h1
  apply hJ
  linear_combination (-2) * h1

/-- C66 refuted for next nearest neighbours on the cubic lattice: they get nothing. -/
theorem C66_refuted_cubic {J1 J2 : ℂ} (hJ : J2 ≠ 0) : ¬ IsExchange ![4, 4, 4] ((cubic 4 4 4).bareW ![4, 4, 4] J1 J2 0).1 (fun a b v =>
      onBonds J1 (cubicGeo.neighbour 1 a b) v + onBonds J2 (cubicGeo.neighbour 2 a b) v) := by
  intro h
  have h2 := (C66_cubic_partial (Lx := 4) (Ly := 4) (Lz := 4) (by norm_num) (by norm_num) (by norm_num) J1 J2 0).2
  have hr : ∀ i, 0 ≤ (![1, 1, 0] : Fin 3 → ℤ) i ∧ (![1, 1, 0] : Fin 3 → ℤ) i < (![4, 4, 4] : Fin 3 → ℤ) i := by decide +kernel
  have e := (h ![1, 1, 0] hr 0 0 0 0 0 0).symm.trans (h2 ![1, 1, 0] hr 0 0 0 0 0 0)
  rw [images_eq2 J1 J2 (B := cubicB1 0 0) (B' := cubicB2 0 0) (by decide +kernel) (by decide +kernel) (cubic_shells.1 0 0) (cubic_shells.2 0 0),
    show (images ![4, 4, 4] ![1, 1, 0] fun v => onBonds J1 (cubicGeo.neighbour 1 0 0) v) = _ from
      images_eq J1 (B := cubicB1 0 0) (by decide +kernel) (cubic_shells.1 0 0), spinDot_dd] at e
  simp [cubicB1, cubicB2, Fin.forall_fin_succ] at e
  exact hJ e

/-- C66 refuted for next nearest neighbours on the triangular lattice with three sublattices: they get nothing. -/
theorem C66_refuted_asymmetric {J1 J2 : ℂ} (hJ : J2 ≠ 0) : ¬ IsExchange ![3, 3] ((asymmetric 3 3).bareW ![3, 3] J1 J2 0).1 (fun a b v =>
      onBonds J1 (asymmetricGeo.neighbour 1 a b) v + onBonds J2 (asymmetricGeo.neighbour 2 a b) v) := by
  intro h
  have h2 := (C66_asymmetric_partial (Lx := 3) (Ly := 3) (by norm_num) (by norm_num) J1 J2 0).2
  have hr : ∀ i, 0 ≤ (![1, 0] : Fin 2 → ℤ) i ∧ (![1, 0] : Fin 2 → ℤ) i < (![3, 3] : Fin 2 → ℤ) i := by decide +kernel
  have e := (h ![1, 0] hr 0 0 0 0 0 0).symm.trans (h2 ![1, 0] hr 0 0 0 0 0 0)
  rw [images_eq2 J1 J2 (B := asymmetricB1 0 0) (B' := asymmetricB2 0 0) (by decide +kernel) (by decide +kernel) (asymmetric_shells.1 0 0) (asymmetric_shells.2 0 0),
    show (images ![3, 3] ![1, 0] fun v => onBonds J1 (asymmetricGeo.neighbour 1 0 0) v) = _ from
      images_eq J1 (B := asymmetricB1 0 0) (by decide +kernel) (asymmetric_shells.1 0 0), spinDot_dd] at e
  simp [asymmetricB1, asymmetricB2] at e
  exact hJ e

/-- C66 refuted for the Hubbard interaction: it acts between sites at any distance, and one of its two ends turns a spin round although the other does not. -/
theorem C66_refuted_hubbard (U : ℂ) (n : ℕ) (a : Fin n) (r : ℤ) :
    hubbardW n U (pairIndex 0 0) a (pairIndex 0 1) a r = U ∧ hubbardW n U (pairIndex 0 0) a (pairIndex 1 1) a r = 0 := by
  simp [hubbardW, pairIndex]

/-- A case: the nearest neighbours of a site of the square lattice, and the interaction with one of them on a lattice of three times four cells. -/
example : squareGeo.neighbour 1 0 0 ![1, 0] ∧ ¬ squareGeo.neighbour 1 0 0 ![1, 1] ∧ squareGeo.neighbour 2 0 0 ![1, 1] ∧
    ((square 3 4).bareW ![3, 4] 1 0 0).1 (pairIndex 0 0) 0 (pairIndex 0 0) 0 (vec2Index [3, 4] [2, 0]) = 1 / 4 := by
  rw [square_shells.1, square_shells.1, square_shells.2]
  refine ⟨by decide, by decide, by decide, ?_⟩
  have h := (C66_square (Lx := 3) (Ly := 4) (by norm_num) (by norm_num) 1 0 0).2 ![2, 0] (by simp) 0 0 0 0 0 0
  rw [images_eq2 1 0 (B := squareB1 0 0) (B' := squareB2 0 0) (by decide +kernel) (by decide +kernel) (square_shells.1 0 0) (square_shells.2 0 0), spinDot_dd] at h
  simpa [squareB1, squareB2] using h

/-- A case of `C66_swap`: the honeycomb lattice. -/
example : ((honeycomb 3 4).bareW ![3, 4] 1 2 0).1 (pairIndex 0 1) 0 (pairIndex 1 0) 1 (vec2Index (List.ofFn ![3, 4]) (List.ofFn ![2, 3])) =
    ((honeycomb 3 4).bareW ![3, 4] 1 2 0).1 (pairIndex 1 0) 1 (pairIndex 0 1) 0 (vec2Index (List.ofFn ![3, 4]) (List.ofFn ![1, 1])) := by
  have h := (C66_honeycomb (Lx := 3) (Ly := 4) (by norm_num) (by norm_num) 1 2 0).2
  generalize ((honeycomb 3 4).bareW ![3, 4] 1 2 0).1 = w at h ⊢
  refine C66_swap h (fun a b v => ?_) (r := ![2, 3]) (r' := ![1, 1]) (by simp) (by simp) (by simp; decide) 0 1 1 0 0 1
  simp only [onBonds]
  rw [← propext (neighbour_swap honeycombGeo 1 a b v), ← propext (neighbour_swap honeycombGeo 2 a b v)]

/-- C66. An index into the volume axis, negative ones included, addresses the element with the same remainder, and there is an element exactly for indices from `-vol` to `vol - 1`. -/
theorem C66_index (vol i : ℤ) : (∀ p, npIndex vol i = some p → 0 ≤ p ∧ p < vol ∧ vol ∣ p - i) ∧ ((npIndex vol i).isSome = true ↔ -vol ≤ i ∧ i < vol) := by
  unfold npIndex
  constructor
  · intro p h
    split_ifs at h with h1 h2
    · cases h
      exact ⟨h1.1, h1.2, by simp⟩
    · cases h
      exact ⟨by omega, by omega, by simp⟩
  · split_ifs with h1 h2
    · simp; omega
    · simp; omega
    · simp; omega

example : npIndex 16 (-1) = some 15 := by decide +kernel

end Feyn
