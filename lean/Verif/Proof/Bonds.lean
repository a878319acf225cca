import Verif.Spec.Bonds
import Verif.Proof.Lattice
import Mathlib.Tactic.FinCases
import Mathlib.Tactic.NormNum
import Mathlib.Tactic.Ring
import Mathlib.Tactic.Linarith
import Mathlib.Tactic.IntervalCases
import Mathlib.Tactic.FieldSimp

/-!
# Bare interactions: proofs
-/

namespace Feyn

variable {d n : ℕ}

theorem inLat_ofFn {L r : Fin d → ℤ} (h : ∀ i, 0 ≤ r i ∧ r i < L i) : InLat (List.ofFn L) (List.ofFn r) := by
  rw [InLat, List.forall₂_iff_get]
  refine ⟨by simp, ?_⟩
  intro i h1 h2
  simpa using h ⟨i, by simpa using h1⟩

theorem latOk_ofFn {L : Fin d → ℤ} (hd : 0 < d) (h : ∀ i, 0 < L i) : LatOk (List.ofFn L) := by
  refine ⟨?_, ?_⟩
  · intro e
    have := congrArg List.length e
    simp at this
    omega
  · intro s hs
    obtain ⟨i, rfl⟩ := (List.mem_ofFn' _ _).1 hs
    exact h i

theorem SS_eq (s t u v : Fin 2) : SS (pairIndex s t) (pairIndex u v) = spinDot s t u v := by
  fin_cases s <;> fin_cases t <;> fin_cases u <;> fin_cases v <;>
    simp [SS, spinDot, pairIndex, Sx, Sy, Sz, pauli, Fin.sum_univ_three]

/-- Value of a sequence of statements with coordinates inside the lattice. -/
theorem addBonds_eq {L : Fin d → ℤ} (hd : 0 < d) (hL : ∀ i, 0 < L i) (l : List (Fin n × Fin n × (Fin d → ℤ) × ℂ))
    (hl : ∀ x ∈ l, ∀ i, 0 ≤ x.2.2.1 i ∧ x.2.2.1 i < L i) (w : BareW n) :
    (addBonds L w l).2 = true ∧ ∀ r : Fin d → ℤ, (∀ i, 0 ≤ r i ∧ r i < L i) → ∀ α a β b,
      (addBonds L w l).1 α a β b (vec2Index (List.ofFn L) (List.ofFn r)) =
        w α a β b (vec2Index (List.ofFn L) (List.ofFn r)) + (l.map fun x => if a = x.1 ∧ b = x.2.1 ∧ r = x.2.2.1 then x.2.2.2 else 0).sum * SS α β := by
  induction l generalizing w with
  | nil => simp [addBonds]
  | cons x l ih =>
    obtain ⟨i, j, e, J⟩ := x
    have he : ∀ i, 0 ≤ e i ∧ e i < L i := hl (i, j, e, J) (by simp)
    have hr := ((index_round_trip (latOk_ofFn hd hL)).1 _ (inLat_ofFn he))
    have hn : npIndex (latVol (List.ofFn L)) (vec2Index (List.ofFn L) (List.ofFn e)) = some (vec2Index (List.ofFn L) (List.ofFn e)) := by
      simp [npIndex, hr.1, hr.2.1]
    have hb : addBond L w i j e J = some fun α a β b r => if a = i ∧ b = j ∧ r = vec2Index (List.ofFn L) (List.ofFn e) then w α a β b r + J * SS α β else w α a β b r := by
      rw [addBond, hn]
    have hrun : addBonds L w ((i, j, e, J) :: l) = addBonds L (fun α a β b r => if a = i ∧ b = j ∧ r = vec2Index (List.ofFn L) (List.ofFn e) then w α a β b r + J * SS α β else w α a β b r) l := by
      rw [addBonds, hb]
    rw [hrun]
    obtain ⟨h1, h2⟩ := ih (fun x hx => hl x (List.mem_cons_of_mem _ hx)) (fun α a β b r => if a = i ∧ b = j ∧ r = vec2Index (List.ofFn L) (List.ofFn e) then w α a β b r + J * SS α β else w α a β b r)
    refine ⟨h1, fun r hr α a β b => ?_⟩
    rw [h2 r hr, List.map_cons, List.sum_cons]
    have hinj : vec2Index (List.ofFn L) (List.ofFn r) = vec2Index (List.ofFn L) (List.ofFn e) ↔ r = e := by
      constructor
      · intro h
        exact List.ofFn_injective (vec2Index_inj (latOk_ofFn hd hL) (inLat_ofFn hr) (inLat_ofFn he) h)
      · rintro rfl; rfl
    simp only [hinj]
    split_ifs with h <;> ring

/-- A coordinate inside the lattice is the image of a cell. -/
def Folds (L : Fin d → ℤ) (e v : Fin d → ℤ) : Prop := ∀ i, 0 ≤ e i ∧ e i < L i ∧ (e i = v i ∨ e i = v i + L i ∨ e i = v i - L i)

theorem Folds.iff {L e v r : Fin d → ℤ} (h : Folds L e v) (hr : ∀ i, 0 ≤ r i ∧ r i < L i) : r = e ↔ ∀ i, v i ≡ r i [ZMOD L i] := by
  have key : ∀ i, v i ≡ e i [ZMOD L i] := by
    intro i
    obtain ⟨_, _, h | h | h⟩ := h i
    · rw [h]
    · rw [h]; exact (Int.modEq_iff_dvd.2 (by simp))
    · rw [h]; exact (Int.modEq_iff_dvd.2 (by simp))
  constructor
  · rintro rfl; exact key
  · intro h2
    funext i
    have := (h2 i).symm.trans (key i)
    rw [Int.ModEq, Int.emod_eq_of_lt (hr i).1 (hr i).2, Int.emod_eq_of_lt (h i).1 (h i).2.1] at this
    exact this

theorem sum_folds {L r : Fin d → ℤ} (hr : ∀ i, 0 ≤ r i ∧ r i < L i) (J : ℂ) {l B : List (Fin d → ℤ)} (h : List.Forall₂ (Folds L) l B) (hB : B.Nodup)
    {p : (Fin d → ℤ) → Prop} (hp : ∀ v, p v ↔ v ∈ B) :
    (l.map fun e => if r = e then J else 0).sum = images L r (onBonds J p) ∧
      (Function.support fun v => if ∀ i, v i ≡ r i [ZMOD L i] then onBonds J p v else 0).Finite := by
  classical
  have h1 : (l.map fun e => if r = e then J else 0) = B.map fun v => if ∀ i, v i ≡ r i [ZMOD L i] then onBonds J p v else 0 := by
    have hB' : ∀ v ∈ B, onBonds J p v = J := fun v hv => by simp [onBonds, (hp v).2 hv]
    clear hp hB
    induction h with
    | nil => rfl
    | @cons e v l B hev _ ih =>
      rw [List.map_cons, List.map_cons, ih (fun v hv => hB' v (List.mem_cons_of_mem _ hv)), hB' v (by simp)]
      congr 1
      simp only [hev.iff hr]
  have hs : (Function.support fun v => if ∀ i, v i ≡ r i [ZMOD L i] then onBonds J p v else 0) ⊆ (B.toFinset : Set (Fin d → ℤ)) := by
    intro v hv
    rw [Function.mem_support] at hv
    simp only [List.coe_toFinset, Set.mem_ofPred_eq]
    rw [← hp]
    by_contra hc
    exact hv (by simp [onBonds, hc])
  refine ⟨?_, (Finset.finite_toSet _).subset hs⟩
  rw [h1, images, finsum_eq_sum_of_support_subset _ hs, List.sum_toFinset _ hB]

theorem images_add {L r : Fin d → ℤ} {J K : (Fin d → ℤ) → ℂ}
    (hJ : (Function.support fun v => if ∀ i, v i ≡ r i [ZMOD L i] then J v else 0).Finite)
    (hK : (Function.support fun v => if ∀ i, v i ≡ r i [ZMOD L i] then K v else 0).Finite) :
    images L r (fun v => J v + K v) = images L r J + images L r K := by
  rw [images, images, images, ← finsum_add_distrib hJ hK]
  refine finsum_congr fun v => ?_
  split_ifs <;> simp

theorem sum_pick {n : ℕ} (a : Fin n) (f : Fin n → ℂ) (h : ∀ i, i ≠ a → f i = 0) : ((List.finRange n).map f).sum = f a := by
  rw [← List.ofFn_eq_map, List.sum_ofFn]
  exact Finset.sum_eq_single a (fun b _ hb => h b hb) (by simp)

theorem sum_bonds (t : Neighbours d n) (J1 J2 J3 : ℂ) (r : Fin d → ℤ) (a b : Fin n) :
    ((t.bonds J1 J2 J3).map fun x => if a = x.1 ∧ b = x.2.1 ∧ r = x.2.2.1 then x.2.2.2 else 0).sum =
      ((t.nn a b).map fun e => if r = e then J1 else 0).sum + ((t.nnn a b).map fun e => if r = e then J2 else 0).sum +
        ((t.nnnn a b).map fun e => if r = e then J3 else 0).sum := by
  rw [Neighbours.bonds, List.flatMap, List.map_flatten, List.sum_flatten, List.map_map, List.map_map, sum_pick a, Function.comp_apply, Function.comp_apply, List.flatMap, List.map_flatten,
    List.sum_flatten, List.map_map, List.map_map, sum_pick b]
  · simp [Function.comp_def, add_assoc]
  · intro j hj
    simp [Function.comp_def, Ne.symm hj]
  · intro i hi
    simp only [Function.comp_apply, List.flatMap, List.map_flatten, List.sum_flatten, List.map_map]
    apply List.sum_eq_zero
    intro x hx
    obtain ⟨j, _, rfl⟩ := List.mem_map.1 hx
    simp [Function.comp_def, Ne.symm hi]

theorem mem_bonds {t : Neighbours d n} {J1 J2 J3 : ℂ} {x} (h : x ∈ t.bonds J1 J2 J3) : x.2.2.1 ∈ t.nn x.1 x.2.1 ∨ x.2.2.1 ∈ t.nnn x.1 x.2.1 ∨ x.2.2.1 ∈ t.nnnn x.1 x.2.1 := by
  simp only [Neighbours.bonds, List.mem_flatMap, List.mem_append, List.mem_map, List.mem_finRange, true_and] at h
  obtain ⟨i, j, (⟨e, he, rfl⟩ | ⟨e, he, rfl⟩) | ⟨e, he, rfl⟩⟩ := h <;> simp [he]

theorem Folds.mem {L : Fin d → ℤ} {l B : List (Fin d → ℤ)} (h : List.Forall₂ (Folds L) l B) {e} (he : e ∈ l) : ∀ i, 0 ≤ e i ∧ e i < L i := by
  induction h with
  | nil => simp at he
  | @cons e' v l B hev _ ih =>
    rcases List.mem_cons.1 he with rfl | he
    · exact fun i => ⟨(hev i).1, (hev i).2.1⟩
    · exact ih he

/-- The neighbour lists describe exchanges on bonds. -/
theorem bareW_exchange {L : Fin d → ℤ} (hd : 0 < d) (hL : ∀ i, 0 < L i) (t : Neighbours d n) {B1 B2 B3 : Fin n → Fin n → List (Fin d → ℤ)}
    (h1 : ∀ a b, List.Forall₂ (Folds L) (t.nn a b) (B1 a b)) (h2 : ∀ a b, List.Forall₂ (Folds L) (t.nnn a b) (B2 a b))
    (h3 : ∀ a b, List.Forall₂ (Folds L) (t.nnnn a b) (B3 a b))
    (n1 : ∀ a b, (B1 a b).Nodup) (n2 : ∀ a b, (B2 a b).Nodup) (n3 : ∀ a b, (B3 a b).Nodup) {p1 p2 p3 : Fin n → Fin n → (Fin d → ℤ) → Prop}
    (q1 : ∀ a b v, p1 a b v ↔ v ∈ B1 a b) (q2 : ∀ a b v, p2 a b v ↔ v ∈ B2 a b) (q3 : ∀ a b v, p3 a b v ↔ v ∈ B3 a b) (J1 J2 J3 : ℂ) :
    (t.bareW L J1 J2 J3).2 = true ∧
      IsExchange L (t.bareW L J1 J2 J3).1 (fun a b v => onBonds J1 (p1 a b) v + onBonds J2 (p2 a b) v + onBonds J3 (p3 a b) v) := by
  have hm : ∀ x ∈ t.bonds J1 J2 J3, ∀ i, 0 ≤ x.2.2.1 i ∧ x.2.2.1 i < L i := by
    intro x hx
    rcases mem_bonds hx with h | h | h
    · exact Folds.mem (h1 _ _) h
    · exact Folds.mem (h2 _ _) h
    · exact Folds.mem (h3 _ _) h
  obtain ⟨g1, g2⟩ := addBonds_eq hd hL (t.bonds J1 J2 J3) hm (fun _ _ _ _ _ => 0)
  refine ⟨g1, fun r hr s u s' u' a b => ?_⟩
  rw [Neighbours.bareW, g2 r hr, sum_bonds, zero_add, SS_eq]
  congr 1
  obtain ⟨e1, f1⟩ := sum_folds hr J1 (h1 a b) (n1 a b) (q1 a b)
  obtain ⟨e2, f2⟩ := sum_folds hr J2 (h2 a b) (n2 a b) (q2 a b)
  obtain ⟨e3, f3⟩ := sum_folds hr J3 (h3 a b) (n3 a b) (q3 a b)
  have f12 : (Function.support fun v => if ∀ i, v i ≡ r i [ZMOD L i] then onBonds J1 (p1 a b) v + onBonds J2 (p2 a b) v else 0).Finite := by
    refine (f1.union f2).subset ?_
    intro v hv
    by_contra hc
    simp only [Set.mem_union, Function.mem_support, not_or, not_not] at hc hv
    split_ifs at hc hv with h
    · rw [hc.1, hc.2] at hv; simp at hv
    · simp at hv
  rw [e1, e2, e3, images_add f12 f3, images_add f1 f2]

/-! Integer coordinates. -/

/-- Displacements in integer units. -/
structure IntGeo (g : Geometry d n) where
  D : Fin n → Fin n → (Fin d → ℤ) → Fin d → ℤ
  w : Fin d → ℤ
  σ : Fin d → ℝ
  s : ℝ
  hσ : ∀ k, 0 < σ k
  hs : 0 < s
  hw : ∀ k, σ k ^ 2 = s * w k
  hD : ∀ a b v k, g.disp a b v k = σ k * D a b v k

variable {g : Geometry d n}

/-- Squared distance in integer units. -/
def IntGeo.q (I : IntGeo g) (a b : Fin n) (v : Fin d → ℤ) : ℤ := ∑ k, I.w k * I.D a b v k ^ 2

theorem IntGeo.dist2_eq (I : IntGeo g) (a b : Fin n) (v : Fin d → ℤ) : g.dist2 a b v = I.s * I.q a b v := by
  rw [Geometry.dist2, IntGeo.q, Int.cast_sum, Finset.mul_sum]
  refine Finset.sum_congr rfl fun k _ => ?_
  rw [I.hD, mul_pow, I.hw]
  push_cast
  ring

/-- Radii of the shells in integer units. -/
def IntGeo.Radii (I : IntGeo g) : ℤ → List ℤ → Prop
  | _, [] => True
  | y, x :: l => y < x ∧ (∃ a b v, I.q a b v = x) ∧ (∀ a b v, I.q a b v ≤ y ∨ x ≤ I.q a b v) ∧ I.Radii x l

theorem IntGeo.shell_succ (I : IntGeo g) {k : ℕ} {y x : ℤ} (hk : ∀ z, g.shell k z ↔ z = I.s * y) (h1 : y < x) (h2 : ∃ a b v, I.q a b v = x)
    (h3 : ∀ a b v, I.q a b v ≤ y ∨ x ≤ I.q a b v) (z : ℝ) : g.shell (k + 1) z ↔ z = I.s * x := by
  have hy : I.s * (y : ℝ) < I.s * x := mul_lt_mul_of_pos_left (by exact_mod_cast h1) I.hs
  constructor
  · rintro ⟨⟨a, b, v, rfl⟩, y', hy', hlt, hmin⟩
    rw [hk] at hy'
    subst hy'
    obtain ⟨a', b', v', e⟩ := h2
    have := hmin a' b' v' (by rw [I.dist2_eq, e]; exact hy)
    rw [I.dist2_eq, I.dist2_eq, e] at this
    rw [I.dist2_eq] at hlt ⊢
    have h4 : y < I.q a b v := by exact_mod_cast lt_of_mul_lt_mul_left hlt I.hs.le
    have h5 : I.q a b v ≤ x := by exact_mod_cast le_of_mul_le_mul_left this I.hs
    have h6 : I.q a b v = x := by rcases h3 a b v with h | h <;> omega
    rw [h6]
  · rintro rfl
    obtain ⟨a', b', v', e⟩ := h2
    refine ⟨⟨a', b', v', by rw [I.dist2_eq, e]⟩, _, (hk _).2 rfl, hy, fun a b v h => ?_⟩
    rw [I.dist2_eq] at h ⊢
    have h4 : y < I.q a b v := by exact_mod_cast lt_of_mul_lt_mul_left h I.hs.le
    exact mul_le_mul_of_nonneg_left (by exact_mod_cast (by rcases h3 a b v with h | h <;> omega : x ≤ I.q a b v)) I.hs.le

theorem IntGeo.shell_zero (I : IntGeo g) (z : ℝ) : g.shell 0 z ↔ z = I.s * (0 : ℤ) := by simp [Geometry.shell]

theorem IntGeo.neighbour_iff (I : IntGeo g) {k : ℕ} {x : ℤ} (hk : ∀ z, g.shell k z ↔ z = I.s * x) (a b : Fin n) (v : Fin d → ℤ) :
    g.neighbour k a b v ↔ I.q a b v = x := by
  rw [Geometry.neighbour, hk, I.dist2_eq]
  constructor
  · intro h
    exact_mod_cast mul_left_cancel₀ I.hs.ne' h
  · intro h; rw [h]

/-- Nearest and next nearest neighbours. -/
theorem IntGeo.two (I : IntGeo g) {x y : ℤ} (h0 : 0 < x) (hx : ∃ a b v, I.q a b v = x) (hxy : x < y) (hy : ∃ a b v, I.q a b v = y)
    (h : ∀ a b v, I.q a b v < y → I.q a b v ≤ 0 ∨ I.q a b v = x) :
    (∀ a b v, g.neighbour 1 a b v ↔ I.q a b v = x) ∧ (∀ a b v, g.neighbour 2 a b v ↔ I.q a b v = y) := by
  have s1 := I.shell_succ I.shell_zero h0 hx (fun a b v => by
    by_cases hc : I.q a b v < y
    · rcases h a b v hc with h | h <;> omega
    · omega)
  have s2 := I.shell_succ s1 hxy hy (fun a b v => by
    by_cases hc : I.q a b v < y
    · rcases h a b v hc with h | h <;> omega
    · omega)
  exact ⟨I.neighbour_iff s1, I.neighbour_iff s2⟩

/-- The first three shells. -/
theorem IntGeo.three (I : IntGeo g) {x y z : ℤ} (h0 : 0 < x) (hx : ∃ a b v, I.q a b v = x) (hxy : x < y) (hy : ∃ a b v, I.q a b v = y) (hyz : y < z)
    (hz : ∃ a b v, I.q a b v = z) (h : ∀ a b v, I.q a b v < z → I.q a b v ≤ 0 ∨ I.q a b v = x ∨ I.q a b v = y) :
    (∀ a b v, g.neighbour 1 a b v ↔ I.q a b v = x) ∧ (∀ a b v, g.neighbour 2 a b v ↔ I.q a b v = y) ∧ (∀ a b v, g.neighbour 3 a b v ↔ I.q a b v = z) := by
  have s1 := I.shell_succ I.shell_zero h0 hx (fun a b v => by
    by_cases hc : I.q a b v < z
    · rcases h a b v hc with h | h | h <;> omega
    · omega)
  have s2 := I.shell_succ s1 hxy hy (fun a b v => by
    by_cases hc : I.q a b v < z
    · rcases h a b v hc with h | h | h <;> omega
    · omega)
  have s3 := I.shell_succ s2 hyz hz (fun a b v => by
    by_cases hc : I.q a b v < z
    · rcases h a b v hc with h | h | h <;> omega
    · omega)
  exact ⟨I.neighbour_iff s1, I.neighbour_iff s2, I.neighbour_iff s3⟩

end Feyn
