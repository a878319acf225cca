import Verif.Props.Bands
import Verif.Spec.Couplings
import Verif.Proof.BondsLat

/-!
# Kitaev model and short range interactions (C81)
-/

set_option linter.unusedSimpArgs false
set_option linter.unnecessarySeqFocus false

namespace Feyn

variable {d n : ℕ}

theorem pair_x (s t u v : Fin 2) : SxSx (pairIndex s t) (pairIndex u v) = spinProduct 0 s t u v := by
  fin_cases s <;> fin_cases t <;> fin_cases u <;> fin_cases v <;> simp [SxSx, spinProduct, pairIndex, Sx, pauli]

theorem pair_y (s t u v : Fin 2) : SySy (pairIndex s t) (pairIndex u v) = spinProduct 1 s t u v := by
  fin_cases s <;> fin_cases t <;> fin_cases u <;> fin_cases v <;> simp [SySy, spinProduct, pairIndex, Sy, pauli]

theorem pair_z (s t u v : Fin 2) : SzSz (pairIndex s t) (pairIndex u v) = spinProduct 2 s t u v := by
  fin_cases s <;> fin_cases t <;> fin_cases u <;> fin_cases v <;> simp [SzSz, spinProduct, pairIndex, Sz, pauli]

theorem pair_i (s t u v : Fin 2) : II (pairIndex s t) (pairIndex u v) = densityProduct s t u v := by
  fin_cases s <;> fin_cases t <;> fin_cases u <;> fin_cases v <;> simp [II, pyI, densityProduct, pairIndex]

theorem typeMatrix_eq (name : String) : (typeMatrix name).isSome = (bondOperator name).isSome ∧
    ∀ m, typeMatrix name = some m → ∃ o, bondOperator name = some o ∧ ∀ s t u v, m (pairIndex s t) (pairIndex u v) = o s t u v := by
  unfold typeMatrix bondOperator
  split_ifs with h1 h2 h3 h4 h5 h6
  · subst h1
    refine ⟨rfl, fun m hm => ⟨_, rfl, fun s t u v => ?_⟩⟩
    cases hm
    rw [SS_eq, spinDot, Fin.sum_univ_three]
    rfl
  · subst h2
    refine ⟨rfl, fun m hm => ⟨_, rfl, fun s t u v => ?_⟩⟩
    cases hm
    rw [← pair_x, ← pair_y]; rfl
  · subst h3
    refine ⟨rfl, fun m hm => ⟨_, rfl, fun s t u v => ?_⟩⟩
    cases hm
    exact pair_x s t u v
  · subst h4
    refine ⟨rfl, fun m hm => ⟨_, rfl, fun s t u v => ?_⟩⟩
    cases hm
    exact pair_y s t u v
  · subst h5
    refine ⟨rfl, fun m hm => ⟨_, rfl, fun s t u v => ?_⟩⟩
    cases hm
    exact pair_z s t u v
  · subst h6
    refine ⟨rfl, fun m hm => ⟨_, rfl, fun s t u v => ?_⟩⟩
    cases hm
    exact pair_i s t u v
  · refine ⟨?_, fun m hm => by cases hm⟩
    split <;> simp_all

/-- Value of a sequence of statements with coordinates inside the lattice. -/
theorem addTerms_eq {L : Fin d → ℤ} (hd : 0 < d) (hL : ∀ i, 0 < L i) (l : List (Fin n × Fin n × (Fin d → ℤ) × PairMatrix))
    (hl : ∀ x ∈ l, ∀ i, 0 ≤ x.2.2.1 i ∧ x.2.2.1 i < L i) (w : BareW n) :
    (addTerms L w l).2 = true ∧ ∀ r : Fin d → ℤ, (∀ i, 0 ≤ r i ∧ r i < L i) → ∀ α a β b,
      (addTerms L w l).1 α a β b (vec2Index (List.ofFn L) (List.ofFn r)) =
        w α a β b (vec2Index (List.ofFn L) (List.ofFn r)) + (l.map fun x => if a = x.1 ∧ b = x.2.1 ∧ r = x.2.2.1 then x.2.2.2 α β else 0).sum := by
  induction l generalizing w with
  | nil => simp [addTerms]
  | cons x l ih =>
    obtain ⟨i, j, e, m⟩ := x
    have he : ∀ i, 0 ≤ e i ∧ e i < L i := hl (i, j, e, m) (by simp)
    have hr := ((index_round_trip (latOk_ofFn hd hL)).1 _ (inLat_ofFn he))
    have hn : npIndex (latVol (List.ofFn L)) (vec2Index (List.ofFn L) (List.ofFn e)) = some (vec2Index (List.ofFn L) (List.ofFn e)) := by
      simp [npIndex, hr.1, hr.2.1]
    have hrun : addTerms L w ((i, j, e, m) :: l) = addTerms L (fun α a β b r => if a = i ∧ b = j ∧ r = vec2Index (List.ofFn L) (List.ofFn e) then w α a β b r + m α β else w α a β b r) l := by
      rw [addTerms, addTerm, hn]
    rw [hrun]
    obtain ⟨h1, h2⟩ := ih (fun x hx => hl x (List.mem_cons_of_mem _ hx)) (fun α a β b r => if a = i ∧ b = j ∧ r = vec2Index (List.ofFn L) (List.ofFn e) then w α a β b r + m α β else w α a β b r)
    refine ⟨h1, fun r hr α a β b => ?_⟩
    rw [h2 r hr, List.map_cons, List.sum_cons]
    have hinj : vec2Index (List.ofFn L) (List.ofFn r) = vec2Index (List.ofFn L) (List.ofFn e) ↔ r = e := by
      constructor
      · intro h
        exact List.ofFn_injective (vec2Index_inj (latOk_ofFn hd hL) (inLat_ofFn hr) (inLat_ofFn he) h)
      · rintro rfl; rfl
    simp only [hinj]
    split_ifs with h <;> ring

theorem mem_shortTerms {t : Neighbours d n} {types : List String} {V : List ℝ} {x} (h : x ∈ t.shortTerms types V) : x.2.2.1 ∈ t.nn x.1 x.2.1 ∨ x.2.2.1 ∈ t.nnn x.1 x.2.1 := by
  simp only [Neighbours.shortTerms, List.mem_flatMap, List.mem_append, List.mem_map, List.mem_finRange, true_and] at h
  obtain ⟨i, j, ⟨e, he, rfl⟩ | ⟨e, he, rfl⟩⟩ := h <;> simp [he]

theorem sum_shortTerms (t : Neighbours d n) (types : List String) (V : List ℝ) (r : Fin d → ℤ) (a b : Fin n) (α β : Fin 4) :
    ((t.shortTerms types V).map fun x => if a = x.1 ∧ b = x.2.1 ∧ r = x.2.2.1 then x.2.2.2 α β else 0).sum =
      ((t.nn a b).map fun e => if r = e then V.getD 0 0 * typeList types 0 α β else 0).sum +
        ((t.nnn a b).map fun e => if r = e then V.getD 1 0 * typeList types 1 α β else 0).sum := by
  rw [Neighbours.shortTerms, List.flatMap, List.map_flatten, List.sum_flatten, List.map_map, List.map_map, sum_pick a, Function.comp_apply, Function.comp_apply, List.flatMap, List.map_flatten,
    List.sum_flatten, List.map_map, List.map_map, sum_pick b]
  · simp [Function.comp_def, add_assoc]
  · intro j hj
    simp [Function.comp_def, Ne.symm hj]
  · intro i hi
    simp only [Function.comp_apply, List.flatMap, List.map_flatten, List.sum_flatten, List.map_map]
    apply List.sum_eq_zero
    intro x hx
    obtain ⟨j, _, rfl⟩ := List.mem_map.1 hx
    simp [Function.comp_def, Ne.symm hi]

theorem typeList_eq {types : List String} (h : ∀ x ∈ types, (bondOperator x).isSome) (k : ℕ) (s t u v : Fin 2) :
    typeList types k (pairIndex s t) (pairIndex u v) = namedAt types k s t u v := by
  rw [typeList, namedAt]
  induction types generalizing k with
  | nil => simp
  | cons x l ih =>
    have hx := h x (by simp)
    rw [← (typeMatrix_eq x).1, Option.isSome_iff_exists] at hx
    obtain ⟨m, hm⟩ := hx
    obtain ⟨o, ho, e⟩ := (typeMatrix_eq x).2 m hm
    rw [List.filterMap_cons_some hm]
    cases k with
    | zero => simp [ho, e]
    | succ k => simpa using ih (fun y hy => h y (List.mem_cons_of_mem _ hy)) k

/-- The neighbour lists describe interactions on bonds. -/
theorem shortRange_coupling {L : Fin d → ℤ} (hd : 0 < d) (hL : ∀ i, 0 < L i) (t : Neighbours d n) {B1 B2 : Fin n → Fin n → List (Fin d → ℤ)}
    (h1 : ∀ a b, List.Forall₂ (Folds L) (t.nn a b) (B1 a b)) (h2 : ∀ a b, List.Forall₂ (Folds L) (t.nnn a b) (B2 a b))
    (n1 : ∀ a b, (B1 a b).Nodup) (n2 : ∀ a b, (B2 a b).Nodup) {p1 p2 : Fin n → Fin n → (Fin d → ℤ) → Prop}
    (q1 : ∀ a b v, p1 a b v ↔ v ∈ B1 a b) (q2 : ∀ a b v, p2 a b v ↔ v ∈ B2 a b) {types : List String} (ht : ∀ x ∈ types, (bondOperator x).isSome) (V : List ℝ) :
    (t.shortRange L types V).2 = true ∧
      IsCoupling L (t.shortRange L types V).1 (fun a b v s s' u u' =>
        onBonds (V.getD 0 0 * namedAt types 0 s s' u u') (p1 a b) v + onBonds (V.getD 1 0 * namedAt types 1 s s' u u') (p2 a b) v) := by
  have hm : ∀ x ∈ t.shortTerms types V, ∀ i, 0 ≤ x.2.2.1 i ∧ x.2.2.1 i < L i := by
    intro x hx
    rcases mem_shortTerms hx with h | h
    · exact Folds.mem (h1 _ _) h
    · exact Folds.mem (h2 _ _) h
  obtain ⟨g1, g2⟩ := addTerms_eq hd hL (t.shortTerms types V) hm (fun _ _ _ _ _ => 0)
  refine ⟨g1, fun r hr s s' u u' a b => ?_⟩
  rw [Neighbours.shortRange, g2 r hr, sum_shortTerms, zero_add]
  simp only [typeList_eq ht]
  obtain ⟨e1, f1⟩ := sum_folds hr (V.getD 0 0 * namedAt types 0 s s' u u') (h1 a b) (n1 a b) (q1 a b)
  obtain ⟨e2, f2⟩ := sum_folds hr (V.getD 1 0 * namedAt types 1 s s' u u') (h2 a b) (n2 a b) (q2 a b)
  rw [e1, e2, images_add f1 f2]

/-- C81: square lattice. With any list of known names the first names the interaction of nearest neighbours and the second that of next nearest neighbours. -/
theorem C81_square {Lx Ly : ℤ} (hx : 2 ≤ Lx) (hy : 2 ≤ Ly) {types : List String} (ht : ∀ x ∈ types, (bondOperator x).isSome) (V : List ℝ) :
    ((square Lx Ly).shortRange ![Lx, Ly] types V).2 = true ∧ IsCoupling ![Lx, Ly] ((square Lx Ly).shortRange ![Lx, Ly] types V).1 (fun a b v s s' u u' =>
      onBonds (V.getD 0 0 * namedAt types 0 s s' u u') (squareGeo.neighbour 1 a b) v + onBonds (V.getD 1 0 * namedAt types 1 s s' u u') (squareGeo.neighbour 2 a b) v) :=
  shortRange_coupling (L := ![Lx, Ly]) (by norm_num) (fun i => by fin_cases i <;> simp <;> omega) (square Lx Ly) (B1 := squareB1) (B2 := squareB2)
    (fun a b => by fin_cases a <;> fin_cases b <;> simp [square, squareB1, Folds, Fin.forall_fin_two] <;> omega)
    (fun a b => by fin_cases a <;> fin_cases b <;> simp [square, squareB2, Folds, Fin.forall_fin_two] <;> omega)
    (by decide +kernel) (by decide +kernel) square_shells.1 square_shells.2 ht V

/-- C81: honeycomb lattice. -/
theorem C81_honeycomb {Lx Ly : ℤ} (hx : 2 ≤ Lx) (hy : 2 ≤ Ly) {types : List String} (ht : ∀ x ∈ types, (bondOperator x).isSome) (V : List ℝ) :
    ((honeycomb Lx Ly).shortRange ![Lx, Ly] types V).2 = true ∧ IsCoupling ![Lx, Ly] ((honeycomb Lx Ly).shortRange ![Lx, Ly] types V).1 (fun a b v s s' u u' =>
      onBonds (V.getD 0 0 * namedAt types 0 s s' u u') (honeycombGeo.neighbour 1 a b) v + onBonds (V.getD 1 0 * namedAt types 1 s s' u u') (honeycombGeo.neighbour 2 a b) v) :=
  shortRange_coupling (L := ![Lx, Ly]) (by norm_num) (fun i => by fin_cases i <;> simp <;> omega) (honeycomb Lx Ly) (B1 := honeycombB1) (B2 := honeycombB2)
    (fun a b => by fin_cases a <;> fin_cases b <;> simp [honeycomb, honeycombB1, Folds, Fin.forall_fin_two] <;> omega)
    (fun a b => by fin_cases a <;> fin_cases b <;> simp [honeycomb, honeycombB2, Folds, Fin.forall_fin_two] <;> omega)
    (by decide +kernel) (by decide +kernel) honeycomb_shells.1 honeycomb_shells.2 ht V

/-- The bonds of the three kinds. -/
def kitaevB : Fin 3 → Fin 2 → Fin 2 → List (Fin 2 → ℤ)
  | 0, 0, 1 => [![0, 0]]
  | 0, 1, 0 => [![0, 0]]
  | 1, 0, 1 => [![-1, 0]]
  | 1, 1, 0 => [![1, 0]]
  | 2, 0, 1 => [![-1, -1]]
  | 2, 1, 0 => [![1, 1]]
  | _, _, _ => []

/-- The coordinates used for them. -/
def kitaevE (Lx Ly : ℤ) : Fin 3 → Fin 2 → Fin 2 → List (Fin 2 → ℤ)
  | 0, 0, 1 => [![0, 0]]
  | 0, 1, 0 => [![0, 0]]
  | 1, 0, 1 => [![Lx - 1, 0]]
  | 1, 1, 0 => [![1, 0]]
  | 2, 0, 1 => [![Lx - 1, Ly - 1]]
  | 2, 1, 0 => [![1, 1]]
  | _, _, _ => []

theorem direction_iff (k : Fin 3) (a b : Fin 2) (v : Fin 2 → ℤ) :
    honeycombGeo.disp a b v 0 * bondDirection k 1 = honeycombGeo.disp a b v 1 * bondDirection k 0 ↔
      ![honeycombD a b v 0 = honeycombD a b v 1, honeycombD a b v 0 = - honeycombD a b v 1, honeycombD a b v 1 = 0] k := by
  have h3 : √3 * √3 = 3 := Real.mul_self_sqrt (by norm_num)
  have e0 : honeycombGeo.disp a b v 0 = √3 / 6 * honeycombD a b v 0 := honeycombInt.hD a b v 0
  have e1 : honeycombGeo.disp a b v 1 = 1 / 2 * honeycombD a b v 1 := honeycombInt.hD a b v 1
  rw [e0, e1]
  generalize honeycombD a b v 0 = x
  generalize honeycombD a b v 1 = y
  fin_cases k
  · simp only [bondDirection, Fin.zero_eta, Matrix.cons_val_zero, Matrix.cons_val_one]
    rw [show √3 / 6 * (x : ℝ) * (√3 / 2) = √3 * √3 * x / 12 by ring, h3, show (3 * (x : ℝ) / 12 = 1 / 2 * (y : ℝ) * (1 / 2)) ↔ ((x : ℝ) = y) by
      constructor <;> intro h <;> linarith]
    exact_mod_cast Iff.rfl
  · simp only [bondDirection, Fin.mk_one, Matrix.cons_val_zero, Matrix.cons_val_one]
    rw [show √3 / 6 * (x : ℝ) * -(√3 / 2) = - (√3 * √3) * x / 12 by ring, h3, show (-3 * (x : ℝ) / 12 = 1 / 2 * (y : ℝ) * (1 / 2)) ↔ ((x : ℝ) = -y) by
      constructor <;> intro h <;> linarith]
    exact_mod_cast Iff.rfl
  · simp [bondDirection]

theorem kitaevBond_iff (k : Fin 3) (a b : Fin 2) (v : Fin 2 → ℤ) : kitaevBond k a b v ↔ v ∈ kitaevB k a b := by
  have h1 : ∀ a b, ∀ v ∈ honeycombB1 a b, ∀ k, ((k = 0 ∧ honeycombD a b v 0 = honeycombD a b v 1 ∨ k = 1 ∧ honeycombD a b v 0 = - honeycombD a b v 1 ∨
      k = 2 ∧ honeycombD a b v 1 = 0) ↔ v ∈ kitaevB k a b) := by decide +kernel
  have h2 : ∀ k a b, ∀ v ∈ kitaevB k a b, v ∈ honeycombB1 a b := by decide +kernel
  rw [kitaevBond, honeycomb_shells.1, direction_iff]
  constructor
  · rintro ⟨h, hk⟩
    rw [← h1 a b v h k]
    fin_cases k
    · exact Or.inl ⟨rfl, hk⟩
    · exact Or.inr (Or.inl ⟨rfl, hk⟩)
    · exact Or.inr (Or.inr ⟨rfl, hk⟩)
  · intro h
    refine ⟨h2 k a b v h, ?_⟩
    have := (h1 a b v (h2 k a b v h) k).2 h
    fin_cases k <;> simpa using this

/-- C81: Kitaev model. The products of the three components of the spins act on the bonds of the three directions, with the three couplings. -/
theorem C81_kitaev {Lx Ly : ℤ} (hx : 2 ≤ Lx) (hy : 2 ≤ Ly) (J : List ℝ) :
    (kitaevW "Honeycomb" Lx Ly J).2 = true ∧ IsCoupling ![Lx, Ly] (kitaevW "Honeycomb" Lx Ly J).1 (fun a b v s s' u u' =>
      onBonds (J.getD 0 0 * spinProduct 0 s s' u u') (kitaevBond 0 a b) v + onBonds (J.getD 1 0 * spinProduct 1 s s' u u') (kitaevBond 1 a b) v +
        onBonds (J.getD 2 0 * spinProduct 2 s s' u u') (kitaevBond 2 a b) v) := by
  have hL : ∀ i, 0 < (![Lx, Ly] : Fin 2 → ℤ) i := fun i => by fin_cases i <;> simp <;> omega
  rw [kitaevW, if_pos rfl]
  have hf : ∀ k a b, List.Forall₂ (Folds ![Lx, Ly]) (kitaevE Lx Ly k a b) (kitaevB k a b) := fun k a b => by
    fin_cases k <;> fin_cases a <;> fin_cases b <;> simp [kitaevE, kitaevB, Folds, Fin.forall_fin_two] <;> omega
  have hn : ∀ k a b, (kitaevB k a b).Nodup := by decide +kernel
  obtain ⟨g1, g2⟩ := addTerms_eq (L := ![Lx, Ly]) (by norm_num) hL
    [(0, 1, ![0, 0], fun α β => J.getD 0 0 * SxSx α β), (1, 0, ![0, 0], fun α β => J.getD 0 0 * SxSx α β),
      (0, 1, ![Lx - 1, 0], fun α β => J.getD 1 0 * SySy α β), (1, 0, ![1, 0], fun α β => J.getD 1 0 * SySy α β),
      (0, 1, ![Lx - 1, Ly - 1], fun α β => J.getD 2 0 * SzSz α β), (1, 0, ![1, 1], fun α β => J.getD 2 0 * SzSz α β)]
    (by
      intro x h
      simp only [List.mem_cons, List.not_mem_nil, or_false] at h
      rcases h with rfl | rfl | rfl | rfl | rfl | rfl <;> simp [Fin.forall_fin_two] <;> omega) (fun (_ : Fin 4) (_ : Fin 2) _ _ _ => 0)
  refine ⟨g1, fun r hr s s' u u' a b => ?_⟩
  obtain ⟨e1, f1⟩ := sum_folds hr (J.getD 0 0 * spinProduct 0 s s' u u') (hf 0 a b) (hn 0 a b) (kitaevBond_iff 0 a b)
  obtain ⟨e2, f2⟩ := sum_folds hr (J.getD 1 0 * spinProduct 1 s s' u u') (hf 1 a b) (hn 1 a b) (kitaevBond_iff 1 a b)
  obtain ⟨e3, f3⟩ := sum_folds hr (J.getD 2 0 * spinProduct 2 s s' u u') (hf 2 a b) (hn 2 a b) (kitaevBond_iff 2 a b)
  have f12 : (Function.support fun v => if ∀ i, v i ≡ r i [ZMOD ![Lx, Ly] i] then
      onBonds (J.getD 0 0 * spinProduct 0 s s' u u') (kitaevBond 0 a b) v + onBonds (J.getD 1 0 * spinProduct 1 s s' u u') (kitaevBond 1 a b) v else 0).Finite := by
    refine (f1.union f2).subset ?_
    intro v hv
    by_contra hc
    simp only [Set.mem_union, Function.mem_support, not_or, not_not] at hc hv
    split_ifs at hc hv with h
    · rw [hc.1, hc.2] at hv; simp at hv
    · simp at hv
  rw [images_add f12 f3, images_add f1 f2, ← e1, ← e2, ← e3, g2 r hr]
  have hx := pair_x s s' u u'
  have hy := pair_y s s' u u'
  have hz := pair_z s s' u u'
  fin_cases a <;> fin_cases b <;> simp [kitaevE, hx, hy, hz, add_assoc]

theorem spinOrbit_some {phase : List ℝ} (h : 3 ≤ phase.length) (i : ℕ) : ∃ u, spinOrbit phase i = some u := by
  match phase, h with
  | a :: b :: c :: l, _ =>
    simp only [spinOrbit]
    split_ifs
    · exact ⟨_, rfl⟩
    · exact ⟨_, rfl⟩

/-- C81: Haldane model, the interaction of nearest neighbours: the product of the densities with the first coupling. The second coupling is not used: see
`C81_refuted_haldane`. -/
theorem C81_haldane_partial {Lx Ly : ℤ} (hx : 2 ≤ Lx) (hy : 2 ≤ Ly) {hop phase : List ℝ} (hh : 2 ≤ hop.length) (hp : 3 ≤ phase.length) (V : List ℝ) :
    (haldaneW "Honeycomb" Lx Ly hop phase V).2 = true ∧ IsCoupling ![Lx, Ly] (haldaneW "Honeycomb" Lx Ly hop phase V).1 (fun a b v s s' u u' =>
      onBonds (V.getD 0 0 * densityProduct s s' u u') (honeycombGeo.neighbour 1 a b) v) := by
  have hL : ∀ i, 0 < (![Lx, Ly] : Fin 2 → ℤ) i := fun i => by fin_cases i <;> simp <;> omega
  have hw : haldaneW "Honeycomb" Lx Ly hop phase V = (honeycomb Lx Ly).shortRange ![Lx, Ly] ["nn"] V := by
    obtain ⟨u1, h1⟩ := spinOrbit_some hp 0
    obtain ⟨u2, h2⟩ := spinOrbit_some hp 1
    match hop, hh with
    | t1 :: t2 :: rest, _ =>
      obtain ⟨w', e, -⟩ := addHops_eq hL (t1 := t1) (t2 := t2) (rest := rest) h1 h2 (honeycomb Lx Ly).hops (by
        intro x hx
        obtain ⟨a, b⟩ := hops_mem hx
        refine ⟨?_, b⟩
        obtain ⟨i, j, e, k⟩ := x
        fin_cases i <;> fin_cases j <;> simp [honeycomb] at a <;> rcases a with rfl | rfl | rfl | rfl | rfl | rfl <;> simp [Fin.forall_fin_two] <;> omega) (fun _ _ _ _ _ => 0)
      rw [haldaneW, if_pos rfl, e]
  rw [hw]
  have h := C81_honeycomb hx hy (types := ["nn"]) (by simp [bondOperator]) V
  refine ⟨h.1, fun r hr s t u v a b => ?_⟩
  rw [h.2 r hr]
  congr 1
  funext x
  simp [namedAt, bondOperator, onBonds]

/-- C81: if the interaction is the same seen from both sites, the table is symmetric: the element for the two ends and the lattice vector between them is that for the
exchanged ends and the opposite vector. -/
theorem C81_swap {L : Fin d → ℤ} {w : BareW n} {K : Fin n → Fin n → (Fin d → ℤ) → Fin 2 → Fin 2 → Fin 2 → Fin 2 → ℂ} (h : IsCoupling L w K)
    (hK : ∀ a b v s s' u u', K a b v s s' u u' = K b a (-v) u u' s s')
    {r r' : Fin d → ℤ} (hr : ∀ i, 0 ≤ r i ∧ r i < L i) (hr' : ∀ i, 0 ≤ r' i ∧ r' i < L i) (ho : ∀ i, r' i ≡ - r i [ZMOD L i]) (s t u v : Fin 2) (a b : Fin n) :
    w (pairIndex s t) a (pairIndex u v) b (vec2Index (List.ofFn L) (List.ofFn r)) = w (pairIndex u v) b (pairIndex s t) a (vec2Index (List.ofFn L) (List.ofFn r')) := by
  rw [h r hr, h r' hr', images, images, ← finsum_comp_equiv (Equiv.neg (Fin d → ℤ)) (f := fun x => if ∀ i, x i ≡ r' i [ZMOD L i] then K b a x u v s t else 0)]
  refine finsum_congr fun x => ?_
  have : (∀ i, x i ≡ r i [ZMOD L i]) ↔ ∀ i, (Equiv.neg (Fin d → ℤ) x) i ≡ r' i [ZMOD L i] := by
    refine forall_congr' fun i => ?_
    simp only [Equiv.neg_apply, Pi.neg_apply]
    constructor
    · intro h; exact h.neg.trans (ho i).symm
    · intro h; simpa using (h.trans (ho i)).neg
  simp only [this, Equiv.neg_apply]
  rw [hK]

/-- The bonds of the Kitaev model are the same seen from both sites. -/
theorem kitaevBond_swap (k : Fin 3) (a b : Fin 2) (v : Fin 2 → ℤ) : kitaevBond k a b v ↔ kitaevBond k b a (-v) := by
  have hd : ∀ j, honeycombGeo.disp b a (-v) j = - honeycombGeo.disp a b v j := fun j => by simp [Geometry.disp]; ring
  rw [kitaevBond, kitaevBond, ← neighbour_swap honeycombGeo 1 a b v, hd, hd, neg_mul, neg_mul, neg_inj]

/-- C81: the interaction of the Kitaev model is symmetric. -/
theorem C81_kitaev_swap {Lx Ly : ℤ} (hx : 2 ≤ Lx) (hy : 2 ≤ Ly) (J : List ℝ) {r r' : Fin 2 → ℤ} (hr : ∀ i, 0 ≤ r i ∧ r i < (![Lx, Ly] : Fin 2 → ℤ) i)
    (hr' : ∀ i, 0 ≤ r' i ∧ r' i < (![Lx, Ly] : Fin 2 → ℤ) i) (ho : ∀ i, r' i ≡ - r i [ZMOD (![Lx, Ly] : Fin 2 → ℤ) i]) (s t u v : Fin 2) (a b : Fin 2) :
    (kitaevW "Honeycomb" Lx Ly J).1 (pairIndex s t) a (pairIndex u v) b (vec2Index [Lx, Ly] [r 0, r 1]) =
      (kitaevW "Honeycomb" Lx Ly J).1 (pairIndex u v) b (pairIndex s t) a (vec2Index [Lx, Ly] [r' 0, r' 1]) := by
  have h := C81_swap (d := 2) (C81_kitaev hx hy J).2 (fun a b (v : Fin 2 → ℤ) s s' u u' => by
    have e : ∀ (k : Fin 3) (c : ℂ), onBonds (c * spinProduct k s s' u u') (kitaevBond k a b) v = onBonds (c * spinProduct k u u' s s') (kitaevBond k b a) (-v) := fun k c => by
      classical
      rw [onBonds, onBonds, spinProduct, spinProduct, mul_comm (pauli k u u' / 2)]
      by_cases h : kitaevBond k a b v
      · rw [if_pos h, if_pos ((kitaevBond_swap k a b v).1 h)]
      · rw [if_neg h, if_neg fun g => h ((kitaevBond_swap k a b v).2 g)]
    exact congrArg₂ (· + ·) (congrArg₂ (· + ·) (e 0 _) (e 1 _)) (e 2 _)) hr hr' ho s t u v a b
  simpa [List.ofFn_succ] using h

/-- C81 refuted for the second coupling of the Haldane model: next nearest neighbours get nothing. -/
theorem C81_refuted_haldane {hop phase : List ℝ} (hh : 2 ≤ hop.length) (hp : 3 ≤ phase.length) {V1 V2 : ℝ} (hV : V2 ≠ 0) :
    ¬ IsCoupling ![3, 3] (haldaneW "Honeycomb" 3 3 hop phase [V1, V2]).1 (fun a b v s s' u u' =>
      onBonds (V1 * densityProduct s s' u u') (honeycombGeo.neighbour 1 a b) v + onBonds (V2 * densityProduct s s' u u') (honeycombGeo.neighbour 2 a b) v) := by
  intro h
  have h2 := (C81_haldane_partial (Lx := 3) (Ly := 3) (by norm_num) (by norm_num) hh hp [V1, V2]).2
  have hr : ∀ i, 0 ≤ (![1, 0] : Fin 2 → ℤ) i ∧ (![1, 0] : Fin 2 → ℤ) i < (![3, 3] : Fin 2 → ℤ) i := by decide +kernel
  have e := (h ![1, 0] hr 0 0 0 0 0 0).symm.trans (h2 ![1, 0] hr 0 0 0 0 0 0)
  rw [images_eq2 _ _ (B := honeycombB1 0 0) (B' := honeycombB2 0 0) (by decide +kernel) (by decide +kernel) (honeycomb_shells.1 0 0) (honeycomb_shells.2 0 0),
    show (images ![3, 3] ![1, 0] fun v => onBonds (((([V1, V2] : List ℝ).getD 0 0 : ℝ) : ℂ) * densityProduct 0 0 0 0) (honeycombGeo.neighbour 1 0 0) v) = _ from
      images_eq _ (B := honeycombB1 0 0) (by decide +kernel) (honeycomb_shells.1 0 0)] at e
  simp [honeycombB1, honeycombB2, densityProduct] at e
  exact hV e

/-- C81 refuted for a lattice that the model is not defined on: there is a message, and the calculation goes on without interaction. -/
theorem C81_refuted_lattice {lat : String} (hl : lat ≠ "Honeycomb") (Lx Ly : ℤ) (hop phase V J : List ℝ) :
    haldaneW lat Lx Ly hop phase V = (fun _ _ _ _ _ => 0, false) ∧ kitaevW lat Lx Ly J = (fun _ _ _ _ _ => 0, false) := by
  simp [haldaneW, kitaevW, hl]

/-- C81 refuted for the Haldane model with one hopping amplitude: the construction fails before the interaction is built, and there is none. -/
theorem C81_refuted_hopping (Lx Ly : ℤ) (t : ℝ) (phase V : List ℝ) : haldaneW "Honeycomb" Lx Ly [t] phase V = (fun _ _ _ _ _ => 0, false) := by
  rw [haldaneW, if_pos rfl, addHops_short (by simp) _ ⟨(0, 0, ![1, 0], 1), by simp [Neighbours.hops, honeycomb], rfl⟩]

/-- C81 refuted for names that are not known: the name is skipped and the interaction after it moves up. The operator named second then acts between nearest neighbours. -/
theorem C81_refuted_name (t : Neighbours d n) (L : Fin d → ℤ) (V : List ℝ) {name : String} (h : bondOperator name = none) :
    t.shortRange L [name, "nn"] V = t.shortRange L ["nn"] V ∧ namedAt [name, "nn"] 0 = (fun _ _ _ _ => 0) ∧ namedAt [name, "nn"] 1 = densityProduct ∧
      namedAt ["nn"] 0 = densityProduct := by
  have h1 : typeMatrix name = none := by
    have := (typeMatrix_eq name).1
    rw [h] at this
    simpa using this
  refine ⟨?_, by simp [namedAt, h], by simp [namedAt, bondOperator], by simp [namedAt, bondOperator]⟩
  have e : typeList [name, "nn"] = typeList ["nn"] := by
    funext k
    simp [typeList, h1]
  simp only [Neighbours.shortRange, Neighbours.shortTerms, e]

theorem addTerms_cons {L : Fin d → ℤ} {w : BareW n} {i j : Fin n} {e : Fin d → ℤ} {m : PairMatrix} {l : List (Fin n × Fin n × (Fin d → ℤ) × PairMatrix)} {p : ℤ}
    (h : npIndex (latVol (List.ofFn L)) (vec2Index (List.ofFn L) (List.ofFn e)) = some p) :
    addTerms L w ((i, j, e, m) :: l) = addTerms L (fun α a β b r => if a = i ∧ b = j ∧ r = p then w α a β b r + m α β else w α a β b r) l := by
  rw [addTerms, addTerm, h]

/-- The sum over the images for the three kinds of bonds. -/
theorem images_eq3 {L r : Fin d → ℤ} (J : Fin 3 → ℂ) {B : Fin 3 → List (Fin d → ℤ)} (hB : ∀ k, (B k).Nodup) {p : Fin 3 → (Fin d → ℤ) → Prop} (hp : ∀ k v, p k v ↔ v ∈ B k) :
    images L r (fun v => onBonds (J 0) (p 0) v + onBonds (J 1) (p 1) v + onBonds (J 2) (p 2) v) =
      ∑ k, ((B k).map fun v => if ∀ i, (v i - r i) % L i = 0 then J k else 0).sum := by
  have f : ∀ k, (Function.support fun v => if ∀ i, v i ≡ r i [ZMOD L i] then onBonds (J k) (p k) v else 0).Finite := fun k => fin_onBonds (J k) (hp k)
  have f12 : (Function.support fun v => if ∀ i, v i ≡ r i [ZMOD L i] then onBonds (J 0) (p 0) v + onBonds (J 1) (p 1) v else 0).Finite := by
    refine ((f 0).union (f 1)).subset ?_
    intro v hv
    by_contra hc
    simp only [Set.mem_union, Function.mem_support, not_or, not_not] at hc hv
    split_ifs at hc hv with h
    · rw [hc.1, hc.2] at hv; simp at hv
    · simp at hv
  rw [images_add f12 (f 2), images_add (f 0) (f 1), Fin.sum_univ_three]
  have e : ∀ k, images L r (onBonds (J k) (p k)) = ((B k).map fun v => if ∀ i, (v i - r i) % L i = 0 then J k else 0).sum := fun k => images_eq (J k) (hB k) (hp k)
  rw [← e 0, ← e 1, ← e 2]

theorem spinProduct_dd (k : Fin 3) : spinProduct k 0 0 0 0 = if k = 2 then 1 / 4 else 0 := by
  fin_cases k <;> simp [spinProduct, pauli]
  norm_num

/-- C81 refuted for a lattice that is one cell wide: the third coupling acts between wrong sites. -/
theorem C81_refuted_strip {J1 J2 J3 : ℝ} (hJ : J3 ≠ 0) : ¬ IsCoupling ![3, 1] (kitaevW "Honeycomb" 3 1 [J1, J2, J3]).1 (fun a b v s s' u u' =>
      onBonds (J1 * spinProduct 0 s s' u u') (kitaevBond 0 a b) v + onBonds (J2 * spinProduct 1 s s' u u') (kitaevBond 1 a b) v +
        onBonds (J3 * spinProduct 2 s s' u u') (kitaevBond 2 a b) v) := by
  intro h
  have h1 := h ![1, 0] (by simp) 0 0 0 0 1 0
  have hv : vec2Index (List.ofFn ![3, 1]) (List.ofFn ![1, 0]) = 1 := by decide +kernel
  replace h1 := h1.trans (images_eq3 (fun k => (![J1, J2, J3] k : ℝ) * spinProduct k 0 0 0 0) (B := fun k => kitaevB k 1 0) (p := fun k => kitaevBond k 1 0) (by decide +kernel)
    (fun k v => kitaevBond_iff k 1 0 v))
  rw [hv] at h1
  rw [kitaevW, if_pos rfl, addTerms_cons (p := 0) (by decide +kernel), addTerms_cons (p := 0) (by decide +kernel), addTerms_cons (p := 2) (by decide +kernel),
    addTerms_cons (p := 1) (by decide +kernel), addTerms_cons (p := 2) (by decide +kernel), addTerms_cons (p := 2) (by decide +kernel)] at h1
  simp [Fin.sum_univ_three, kitaevB, addTerms, spinProduct_dd, pair_x, pair_y, pair_z] at h1
  exact hJ h1

/-- C81 refuted for a lattice that is one cell long: the construction ends with an exception, which is caught, and the third coupling is left out. -/
theorem C81_refuted_column {Ly : ℤ} (hy : 0 < Ly) (J1 J2 J3 J3' : ℝ) :
    (kitaevW "Honeycomb" 1 Ly [J1, J2, J3]).2 = false ∧ (kitaevW "Honeycomb" 1 Ly [J1, J2, J3]).1 = (kitaevW "Honeycomb" 1 Ly [J1, J2, J3']).1 := by
  have h0 : npIndex (latVol (List.ofFn ![1, Ly])) (vec2Index (List.ofFn ![1, Ly]) (List.ofFn ![0, 0])) = some 0 := by
    simp [npIndex, vec2Index, latVol, hy]
  have h1 : npIndex (latVol (List.ofFn ![1, Ly])) (vec2Index (List.ofFn ![1, Ly]) (List.ofFn ![1, 0])) = none := by
    simp [npIndex, vec2Index, latVol]
  have h2 : npIndex (latVol (List.ofFn ![1, Ly])) (vec2Index (List.ofFn ![1, Ly]) (List.ofFn ![(1 : ℤ) - 1, 0])) = some 0 := h0
  have e : ∀ J : List ℝ, kitaevW "Honeycomb" 1 Ly J = _ := fun J => by
    rw [kitaevW, if_pos rfl, addTerms_cons h0, addTerms_cons h0, addTerms_cons h2, addTerms, addTerm, h1]
  rw [e, e]
  exact ⟨rfl, rfl⟩

/-- A case: a bond of the third kind on a lattice of three times four cells. -/
example : kitaevBond 2 0 1 ![-1, -1] ∧ ¬ kitaevBond 1 0 1 ![-1, -1] ∧
    (kitaevW "Honeycomb" 3 4 [1, 2, 3]).1 (pairIndex 0 0) 0 (pairIndex 0 0) 1 (vec2Index [3, 4] [2, 3]) = 3 / 4 := by
  rw [kitaevBond_iff, kitaevBond_iff]
  refine ⟨by decide, by decide, ?_⟩
  have h := (C81_kitaev (Lx := 3) (Ly := 4) (by norm_num) (by norm_num) [1, 2, 3]).2 ![2, 3] (by simp) 0 0 0 0 0 1
  replace h := h.trans (images_eq3 (fun k => ((([1, 2, 3] : List ℝ).getD k 0 : ℝ) : ℂ) * spinProduct k 0 0 0 0) (B := fun k => kitaevB k 0 1) (p := fun k => kitaevBond k 0 1)
    (by decide +kernel) (fun k v => kitaevBond_iff k 0 1 v))
  simp [Fin.sum_univ_three, kitaevB, spinProduct_dd] at h
  rw [show (3 : ℂ) / 4 = 3 * 4⁻¹ by norm_num, ← h]

/-- A case of the short range interactions: exchange of nearest neighbours and density of next nearest neighbours, with a pair of each kind. -/
example : (∀ x ∈ ["SS", "nn"], (bondOperator x).isSome) ∧ namedAt ["SS", "nn"] 0 0 1 1 0 = 1 / 2 ∧ namedAt ["SS", "nn"] 1 0 0 1 1 = 1 ∧
    squareGeo.neighbour 1 0 0 ![0, 1] ∧ squareGeo.neighbour 2 0 0 ![1, -1] := by
  rw [square_shells.1, square_shells.2]
  refine ⟨by simp [bondOperator], ?_, by simp [namedAt, bondOperator, densityProduct], by decide, by decide⟩
  simp [namedAt, bondOperator, spinProduct, pauli]
  ring_nf
  simp
  norm_num

/-- Cases of the hypotheses of the refutations: four hopping amplitudes and phases as in the input file, an unknown name. -/
example : 2 ≤ ([1, 0, 0, 0] : List ℝ).length ∧ 3 ≤ ([0, 0, 0, 0] : List ℝ).length ∧ bondOperator "Sz" = none := ⟨by simp, by simp, rfl⟩

end Feyn
