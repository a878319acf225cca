import Verif.Model.RIndex
import Verif.Spec.Lattice
import Verif.Proof.Lattice

/-! # Differences of sites by their indices (C105) -/

namespace Feyn

private theorem rLoop_eq (rs : List ℤ) (h : ∀ s ∈ rs, 0 < s) : ∀ (i : ℤ) (acc : List ℤ), 0 ≤ i → rIndex2VecLoop rs i acc = index2VecLoop rs i acc := by
  induction rs with
  | nil => intro i acc _; rfl
  | cons s rs ih =>
    intro i acc hi
    have hs := h s (by simp)
    rw [rIndex2VecLoop, index2VecLoop, Int.fdiv_eq_tdiv_of_nonneg hi hs.le, Int.fmod_eq_tmod_of_nonneg hi hs.le]
    exact ih (fun x hx => h x (List.mem_cons_of_mem _ hx)) _ _ (Int.tdiv_nonneg hi hs.le)

private theorem rIndex2Vec_eq {L : List ℤ} (h : LatOk L) {i : ℤ} (hi : 0 ≤ i) : rIndex2Vec L i = index2Vec L i :=
  rLoop_eq _ (fun s hs => h.2 s (List.mem_of_mem_tail (List.mem_reverse.1 hs))) _ _ hi

private theorem rVec_eq (L v : List ℤ) : rVec2Index L v = vec2Index L v := by cases L <;> cases v <;> rfl

private theorem rShift_eq : ∀ {L v : List ℤ}, v.length = L.length → rShift L v = latShift L v
  | [], [], _ => rfl
  | s :: L, x :: v, h => by
    rw [rShift, rShift_eq (by simpa using h)]
    rfl

private theorem inLat_length {L v : List ℤ} (h : InLat L v) : v.length = L.length := (List.Forall₂.length_eq h).symm

/-- **C105.** The tables of the Dyson program and the Monte Carlo program number the differences of sites in the same way; the sites are in the other order. -/
theorem C105_same {L : List ℤ} (h : LatOk L) {a b : List ℤ} (ha : InLat L a) (hb : InLat L b) : rCoordiIndex L (vec2Index L b) (vec2Index L a) = coordiIndex L a b := by
  obtain ⟨a1, -, a3⟩ := (index_round_trip h).1 a ha
  obtain ⟨b1, -, b3⟩ := (index_round_trip h).1 b hb
  rw [rCoordiIndex, rIndex2Vec_eq h a1, rIndex2Vec_eq h b1, a3, b3, rVec_eq, rShift_eq, coordiIndex]
  rw [List.length_zipWith, inLat_length ha, inLat_length hb, min_self]

/-- **C105.** The index of a site gives its coordinates and these give the index. -/
theorem C105_site {L : List ℤ} (h : LatOk L) {i : ℤ} (h0 : 0 ≤ i) (h1 : i < latVol L) : InLat L (rIndex2Vec L i) ∧ rVec2Index L (rIndex2Vec L i) = i := by
  rw [rIndex2Vec_eq h h0, rVec_eq]
  exact (index_round_trip h).2 i h0 h1

private theorem shift_mod {L a b : List ℤ} (ha : InLat L a) (hb : InLat L b) :
    latShift L (List.zipWith (fun x y => x - y) a b) = List.zipWith (fun s d => d % s) L (List.zipWith (fun x y => x - y) a b) := by
  induction ha generalizing b with
  | nil => cases hb; rfl
  | cons h _ ih =>
    cases hb with
    | cons h' hb' =>
      have := ih hb'
      unfold latShift at this ⊢
      simp only [List.zipWith_cons_cons, this, shift1_diff h h']

/-- **C105.** The difference of two sites is a site whose coordinates are the differences of the coordinates modulo the lengths. -/
theorem C105_difference {L : List ℤ} (h : LatOk L) {i j : ℤ} (hi : 0 ≤ i ∧ i < latVol L) (hj : 0 ≤ j ∧ j < latVol L) :
    (0 ≤ rCoordiIndex L i j ∧ rCoordiIndex L i j < latVol L) ∧
      rIndex2Vec L (rCoordiIndex L i j) = List.zipWith (fun s d => d % s) L (List.zipWith (fun x y => x - y) (rIndex2Vec L i) (rIndex2Vec L j)) := by
  have vi := (C105_site h hi.1 hi.2).1
  have vj := (C105_site h hj.1 hj.2).1
  have e : rCoordiIndex L i j = vec2Index L (latShift L (List.zipWith (fun x y => x - y) (rIndex2Vec L i) (rIndex2Vec L j))) := by
    rw [rCoordiIndex, rVec_eq, rShift_eq]
    rw [List.length_zipWith, inLat_length vi, inLat_length vj, min_self]
  obtain ⟨r1, r2, r3⟩ := (index_round_trip h).1 _ (shift_inLat vi vj)
  refine ⟨by rw [e]; exact ⟨r1, r2⟩, ?_⟩
  rw [e, rIndex2Vec_eq h r1, r3, shift_mod vi vj]

private theorem index_ext {L : List ℤ} (h : LatOk L) {i j : ℤ} (hi : 0 ≤ i ∧ i < latVol L) (hj : 0 ≤ j ∧ j < latVol L) (e : rIndex2Vec L i = rIndex2Vec L j) : i = j := by
  rw [← (C105_site h hi.1 hi.2).2, ← (C105_site h hj.1 hj.2).2, e]

private theorem mod_chain {L a b c : List ℤ} (ha : InLat L a) (hb : InLat L b) (hc : InLat L c) :
    List.zipWith (fun s d => d % s) L (List.zipWith (fun x y => x - y) (List.zipWith (fun s d => d % s) L (List.zipWith (fun x y => x - y) a c))
      (List.zipWith (fun s d => d % s) L (List.zipWith (fun x y => x - y) b c))) = List.zipWith (fun s d => d % s) L (List.zipWith (fun x y => x - y) a b) := by
  induction ha generalizing b c with
  | nil => cases hb; cases hc; rfl
  | @cons s x L a h _ ih =>
    cases hb with
    | @cons _ y _ b h' hb' =>
      cases hc with
      | @cons _ z _ c h'' hc' =>
        simp only [List.zipWith_cons_cons, ih hb' hc']
        rw [← Int.sub_emod, show x - z - (y - z) = x - y by ring]

/-- **C105.** Differences do not depend on the origin. -/
theorem C105_origin {L : List ℤ} (h : LatOk L) {i j k : ℤ} (hi : 0 ≤ i ∧ i < latVol L) (hj : 0 ≤ j ∧ j < latVol L) (hk : 0 ≤ k ∧ k < latVol L) :
    rCoordiIndex L (rCoordiIndex L i k) (rCoordiIndex L j k) = rCoordiIndex L i j := by
  obtain ⟨a1, a2⟩ := C105_difference h hi hk
  obtain ⟨b1, b2⟩ := C105_difference h hj hk
  obtain ⟨c1, c2⟩ := C105_difference h hi hj
  obtain ⟨d1, d2⟩ := C105_difference h a1 b1
  refine index_ext h d1 c1 ?_
  rw [d2, a2, b2, c2]
  exact mod_chain (C105_site h hi.1 hi.2).1 (C105_site h hj.1 hj.2).1 (C105_site h hk.1 hk.2).1

private theorem zero_index {L : List ℤ} (h : LatOk L) {i : ℤ} (hi : 0 ≤ i ∧ i < latVol L) : rCoordiIndex L i 0 = i := by
  have h0 : (0 : ℤ) ≤ 0 ∧ 0 < latVol L := ⟨le_rfl, by omega⟩
  obtain ⟨a1, a2⟩ := C105_difference h hi h0
  refine index_ext h a1 hi ?_
  have hz : ∀ (rs acc : List ℤ), (∀ x ∈ acc, x = 0) → ∀ x ∈ rIndex2VecLoop rs 0 acc, x = 0 := by
    intro rs
    induction rs with
    | nil => intro acc ha x hx; rcases List.mem_cons.1 hx with rfl | hx; exacts [rfl, ha x hx]
    | cons s rs ih =>
      intro acc ha x hx
      rw [rIndex2VecLoop, Int.zero_fdiv, Int.zero_fmod] at hx
      exact ih (0 :: acc) (fun y hy => by rcases List.mem_cons.1 hy with rfl | hy; exacts [rfl, ha y hy]) x hx
  have key : ∀ {L a z : List ℤ}, InLat L a → InLat L z → (∀ x ∈ z, x = 0) → List.zipWith (fun s d => d % s) L (List.zipWith (fun x y => x - y) a z) = a := by
    intro L a z ha
    induction ha generalizing z with
    | nil => intro hz _; cases hz; rfl
    | @cons s x L a hx _ ih =>
      intro hz hall
      cases hz with
      | @cons _ y _ z _ hz' =>
        obtain rfl := hall y (by simp)
        simp only [List.zipWith_cons_cons, ih hz' fun w hw => hall w (List.mem_cons_of_mem _ hw), sub_zero, Int.emod_eq_of_lt hx.1 hx.2]
  rw [a2]
  exact key (C105_site h hi.1 hi.2).1 (C105_site h h0.1 h0.2).1 (hz _ _ (by simp))

private theorem mod_back {L a b : List ℤ} (ha : InLat L a) (hb : InLat L b) :
    List.zipWith (fun s d => d % s) L (List.zipWith (fun x y => x - y) a (List.zipWith (fun s d => d % s) L (List.zipWith (fun x y => x - y) a b))) = b := by
  induction ha generalizing b with
  | nil => cases hb; rfl
  | @cons s x L a _ _ ih =>
    cases hb with
    | @cons _ y _ b hy hb' =>
      simp only [List.zipWith_cons_cons, ih hb']
      rw [Int.sub_emod, Int.emod_emod, ← Int.sub_emod, sub_sub_cancel, Int.emod_eq_of_lt hy.1 hy.2]

/-- **C105.** Seen from any site, and to any site, every difference occurs exactly once: sums over all sites can be taken over the differences. -/
theorem C105_once {L : List ℤ} (h : LatOk L) {j d : ℤ} (hj : 0 ≤ j ∧ j < latVol L) (hd : 0 ≤ d ∧ d < latVol L) :
    (∃! i, (0 ≤ i ∧ i < latVol L) ∧ rCoordiIndex L i j = d) ∧ ∃! i, (0 ≤ i ∧ i < latVol L) ∧ rCoordiIndex L j i = d := by
  have h0 : (0 : ℤ) ≤ 0 ∧ 0 < latVol L := ⟨le_rfl, by omega⟩
  have refl : ∀ {x : ℤ}, 0 ≤ x ∧ x < latVol L → rCoordiIndex L x x = 0 := by
    intro x hx
    obtain ⟨c, c'⟩ := C105_difference h hx hx
    obtain ⟨c0, c0'⟩ := C105_difference h h0 h0
    rw [← zero_index h h0]
    refine index_ext h c c0 ?_
    rw [c', c0']
    have key : ∀ {L a b : List ℤ}, InLat L a → InLat L b → List.zipWith (fun s d => d % s) L (List.zipWith (fun x y => x - y) a a) =
        List.zipWith (fun s d => d % s) L (List.zipWith (fun x y => x - y) b b) := by
      intro L a b ha
      induction ha generalizing b with
      | nil => intro hb; cases hb; rfl
      | cons _ _ ih => intro hb; cases hb with | cons _ hb' => simp only [List.zipWith_cons_cons, ih hb', sub_self]
    exact key (C105_site h hx.1 hx.2).1 (C105_site h h0.1 h0.2).1
  have neg : ∀ {x : ℤ}, 0 ≤ x ∧ x < latVol L → (0 ≤ rCoordiIndex L 0 x ∧ rCoordiIndex L 0 x < latVol L) := fun hx => (C105_difference h h0 hx).1
  have negneg : ∀ {x y : ℤ}, 0 ≤ x ∧ x < latVol L → 0 ≤ y ∧ y < latVol L → rCoordiIndex L 0 (rCoordiIndex L x y) = rCoordiIndex L y x := by
    intro x y hx hy
    have := C105_origin h hy hx hy
    rwa [refl hy] at this
  have n2 : ∀ {x : ℤ}, 0 ≤ x ∧ x < latVol L → rCoordiIndex L 0 (rCoordiIndex L 0 x) = x := fun hx => by rw [negneg h0 hx, zero_index h hx]
  have cancel : ∀ {x y : ℤ}, 0 ≤ x ∧ x < latVol L → 0 ≤ y ∧ y < latVol L → rCoordiIndex L (rCoordiIndex L x (rCoordiIndex L 0 y)) y = x := by
    intro x y hx hy
    have := C105_origin h hx h0 (neg hy)
    rwa [n2 hy, zero_index h hx] at this
  have sub : ∀ {x y : ℤ}, 0 ≤ x ∧ x < latVol L → 0 ≤ y ∧ y < latVol L → rCoordiIndex L (rCoordiIndex L x y) (rCoordiIndex L 0 y) = x := by
    intro x y hx hy
    rw [C105_origin h hx h0 hy, zero_index h hx]
  have back : ∀ {x y : ℤ}, 0 ≤ x ∧ x < latVol L → 0 ≤ y ∧ y < latVol L → rCoordiIndex L x (rCoordiIndex L x y) = y := by
    intro x y hx hy
    obtain ⟨a1, a2⟩ := C105_difference h hx hy
    obtain ⟨b1, b2⟩ := C105_difference h hx a1
    refine index_ext h b1 hy ?_
    rw [b2, a2]
    exact mod_back (C105_site h hx.1 hx.2).1 (C105_site h hy.1 hy.2).1
  refine ⟨⟨rCoordiIndex L d (rCoordiIndex L 0 j), ⟨(C105_difference h hd (neg hj)).1, cancel hd hj⟩, ?_⟩, ⟨rCoordiIndex L j d, ⟨(C105_difference h hj hd).1, ?_⟩, ?_⟩⟩
  · rintro i ⟨hi, rfl⟩
    exact (sub hi hj).symm
  · exact back hj hd
  · rintro i ⟨hi, rfl⟩
    exact (back hj hi).symm

/-- On a lattice of 4 by 3 sites, the difference of the sites (1, 0) and (3, 2) is (2, 1). -/
example : LatOk [4, 3] ∧ latVol [4, 3] = 12 ∧ rIndex2Vec [4, 3] 3 = [1, 0] ∧ rIndex2Vec [4, 3] 11 = [3, 2] ∧ rCoordiIndex [4, 3] 3 11 = 7 ∧ rIndex2Vec [4, 3] 7 = [2, 1] := by
  refine ⟨⟨by simp, by simp⟩, by decide, by decide, by decide, by decide, by decide⟩

end Feyn
