import Verif.Model.Drawing
import Verif.Spec.Lattice
import Verif.Proof.Lattice

/-! # Lists of sites: auxiliary results -/

namespace Feyn

theorem range_mul_eq (l P : ℕ) : List.range (l * P) = (List.range l).flatMap fun i => (List.range P).map fun j => i * P + j := by
  induction l with
  | zero => simp
  | succ l ih => rw [Nat.succ_mul, List.range_add, ih, List.range_succ, List.flatMap_append]; simp

theorem coordRows_index (ls : List ℕ) (o : ℤ) :
    (coordRows ls).map (fun c => ((ls.map fun l : ℕ => (l : ℤ)).zip c).foldl (fun index p => index * p.1 + p.2) o) = (List.range ls.prod).map fun j : ℕ => o * (ls.prod : ℕ) + (j : ℤ) := by
  induction ls generalizing o with
  | nil => simp [coordRows]
  | cons l ls ih =>
    rw [coordRows, List.map_flatMap, List.prod_cons, range_mul_eq, List.map_flatMap]
    refine List.flatMap_congr fun i _ => ?_
    rw [List.map_map, List.map_map]
    have := ih (o * l + i)
    simp only [Function.comp_def, List.map_cons, List.zip_cons_cons, List.foldl_cons]
    rw [this]
    refine List.map_congr_left fun j _ => ?_
    push_cast
    ring

theorem coordRows_inLat (ls : List ℕ) (c : List ℤ) : c ∈ coordRows ls ↔ InLat (ls.map fun l : ℕ => (l : ℤ)) c := by
  induction ls generalizing c with
  | nil => simp [coordRows, InLat]
  | cons l ls ih =>
    simp only [coordRows, List.mem_flatMap, List.mem_range, List.mem_map, List.map_cons]
    constructor
    · rintro ⟨i, hi, c', hc, rfl⟩
      exact List.Forall₂.cons ⟨by positivity, by exact_mod_cast hi⟩ ((ih c').1 hc)
    · intro h
      rcases h with _ | ⟨⟨h0, h1⟩, h2⟩
      rename_i x c'
      refine ⟨x.toNat, by omega, c', (ih c').2 h2, ?_⟩
      rw [Int.toNat_of_nonneg h0]

theorem coordi_rows {ls : List ℕ} (h : ls ≠ []) : (coordRows ls).map (pyCoordiIndex (ls.map fun l : ℕ => (l : ℤ))) = (List.range ls.prod).map fun j : ℕ => (j : ℤ) := by
  rcases ls with _ | ⟨l, ls⟩
  · exact absurd rfl h
  · rw [coordRows, List.map_flatMap, List.prod_cons, range_mul_eq, List.map_flatMap]
    refine List.flatMap_congr fun i _ => ?_
    rw [List.map_map, List.map_map]
    have := coordRows_index ls i
    simp only [Function.comp_def, List.map_cons, pyCoordiIndex]
    rw [this]
    refine List.map_congr_left fun j _ => ?_
    push_cast
    ring

theorem finRange_val (n : ℕ) : (List.finRange n).map (fun s : Fin n => (s : ℕ)) = List.range n := by simp

/-- The keys of the assignments are the numbers from zero, in order. -/
theorem siteItems_keys {d n : ℕ} (g : Geometry d n) {L : List ℕ} (h : L ≠ []) (offset : List ℤ) (subIn : Fin n) :
    (g.siteItems L offset subIn (coordRows L)).map (fun e => e.1) = (List.range (L.prod * n)).map fun j : ℕ => (j : ℤ) := by
  unfold Geometry.siteItems
  rw [List.map_flatMap, range_mul_eq, List.map_flatMap]
  have e : ∀ (f : ℤ → List ℤ), (coordRows L).flatMap (fun c => f (pyCoordiIndex (L.map fun l : ℕ => (l : ℤ)) c)) = (List.range L.prod).flatMap fun i : ℕ => f i := by
    intro f
    have h1 := congrArg (fun l : List ℤ => l.flatMap f) (coordi_rows h)
    simpa only [List.flatMap_map] using h1
  have e2 : ∀ c, ((List.finRange n).map fun s => (pyLatIndex L c s, (⟨g.drawVec L offset c subIn s, c, s⟩ : DrawnSite d n))).map (fun e => e.1) =
      (fun i : ℤ => (List.range n).map fun j : ℕ => i * n + j) (pyCoordiIndex (L.map fun l : ℕ => (l : ℤ)) c) := by
    intro c
    dsimp only
    rw [← finRange_val, List.map_map, List.map_map]
    rfl
  simp only [e2]
  rw [e fun i : ℤ => (List.range n).map fun j : ℕ => i * n + j]
  refine List.flatMap_congr fun i _ => ?_
  rw [List.map_map]
  refine List.map_congr_left fun j _ => ?_
  simp

theorem fill_points {α : Type} (items : List (ℤ × α)) (k m : ℕ) (done : List α) (hd : done.length = k) (hk : items.map (fun e => e.1) = (List.range items.length).map fun j : ℕ => ((k + j : ℕ) : ℤ))
    (hm : items.length = m) :
    items.foldlM (fun l e => pySetItem l e.1 e.2) (done.map some ++ List.replicate m none) = some ((done ++ items.map fun e => e.2).map some) := by
  induction items generalizing k m done with
  | nil => subst hm; simp
  | cons e items ih =>
    subst hm
    obtain ⟨i, x⟩ := e
    simp only [List.map_cons, List.length_cons, List.range_succ_eq_map, List.map_map, List.cons.injEq] at hk
    obtain ⟨h1, h2⟩ := hk
    simp only [Nat.add_zero] at h1
    subst h1
    rw [List.foldlM_cons]
    have e1 : pySetItem (done.map some ++ List.replicate (items.length + 1) none) (k : ℤ) x = some ((done ++ [x]).map some ++ List.replicate items.length none) := by
      unfold pySetItem npIndex
      rw [if_pos ⟨by positivity, by simp; omega⟩]
      simp only [Int.toNat_natCast]
      rw [List.set_append_right _ _ (by simp [hd])]
      simp [hd, List.replicate_succ]
    rw [List.length_cons, e1]
    simp only [Option.bind_eq_bind, Option.bind_some]
    rw [ih (k + 1) items.length (done ++ [x]) (by simp [hd]) _ rfl]
    · simp
    · rw [h2]
      refine List.map_congr_left fun j _ => ?_
      simp only [Function.comp_apply]
      push_cast
      ring

theorem sitesList_eq {d n : ℕ} (g : Geometry d n) {L : List ℕ} (h : L.length ∈ [1, 2, 3]) (has : Bool) (a : Fin n) :
    g.sitesList L has a = some (((g.siteItems L (drawOffset L has) a (coordRows L)).map fun e => e.2).map some, cellLines n L (coordRows L)) := by
  have hL : L ≠ [] := by rintro rfl; simp at h
  have hk := siteItems_keys g hL (drawOffset L has) a
  have hl : (g.siteItems L (drawOffset L has) a (coordRows L)).length = L.prod * n := by
    have := congrArg List.length hk
    simpa using this
  have := fill_points (g.siteItems L (drawOffset L has) a (coordRows L)) 0 (L.prod * n) [] rfl (by rw [hk, hl]; simp) hl
  simp only [List.map_nil, List.nil_append] at this
  unfold Geometry.sitesList allCoordi
  rw [if_pos h]
  simp only [Option.bind_eq_bind, Option.bind_some]
  rw [this]
  rfl

theorem siteItems_at {d n : ℕ} (g : Geometry d n) {L : List ℕ} (h : L ≠ []) (offset : List ℤ) (a : Fin n) {i : ℕ} {e : ℤ × DrawnSite d n}
    (he : (g.siteItems L offset a (coordRows L))[i]? = some e) : e.1 = i ∧ i < L.prod * n ∧
      ∃ c s, InLat (L.map fun l : ℕ => (l : ℤ)) c ∧ e = (pyLatIndex L c s, ⟨g.drawVec L offset c a s, c, s⟩) := by
  have hk := siteItems_keys g h offset a
  have h1 := congrArg (fun l : List ℤ => l[i]?) hk
  simp only [List.getElem?_map, he, Option.map_some] at h1
  have hi : i < L.prod * n := by
    by_contra hi
    rw [List.getElem?_eq_none (by simpa using hi)] at h1
    simp at h1
  rw [List.getElem?_range hi] at h1
  refine ⟨by simpa using h1, hi, ?_⟩
  have hm := List.mem_of_getElem? he
  simp only [Geometry.siteItems, List.mem_flatMap, List.mem_map] at hm
  obtain ⟨c, hc, s, -, rfl⟩ := hm
  exact ⟨c, s, (coordRows_inLat L c).1 hc, rfl⟩

theorem siteItems_of {d n : ℕ} (g : Geometry d n) {L : List ℕ} (h : L ≠ []) (offset : List ℤ) (a : Fin n) {c : List ℤ} (hc : InLat (L.map fun l : ℕ => (l : ℤ)) c) (s : Fin n) :
    ∃ i : ℕ, pyLatIndex L c s = i ∧ (g.siteItems L offset a (coordRows L))[i]? = some (pyLatIndex L c s, ⟨g.drawVec L offset c a s, c, s⟩) := by
  have hm : (pyLatIndex L c s, (⟨g.drawVec L offset c a s, c, s⟩ : DrawnSite d n)) ∈ g.siteItems L offset a (coordRows L) := by
    simp only [Geometry.siteItems, List.mem_flatMap, List.mem_map]
    exact ⟨c, (coordRows_inLat L c).2 hc, s, List.mem_finRange s, rfl⟩
  obtain ⟨i, hi⟩ := List.mem_iff_getElem?.1 hm
  exact ⟨i, (siteItems_at g h offset a hi).1, hi⟩

/-- The index determines the site. -/
theorem pyLatIndex_inj {n : ℕ} {L : List ℕ} (h : L ≠ []) {c c' : List ℤ} (hc : InLat (L.map fun l : ℕ => (l : ℤ)) c) (hc' : InLat (L.map fun l : ℕ => (l : ℤ)) c') {s s' : Fin n}
    (e : pyLatIndex L c s = pyLatIndex L c' s') : c = c' ∧ s = s' := by
  let g : Geometry 0 n := ⟨fun _ _ => 0, fun _ _ => 0⟩
  obtain ⟨i, h1, h2⟩ := siteItems_of g h [] s hc s
  obtain ⟨j, h3, h4⟩ := siteItems_of g h [] s hc' s'
  have : i = j := by exact_mod_cast (h1.symm.trans e).trans h3
  subst this
  have h5 := h2.symm.trans h4
  simp only [Option.some.injEq, Prod.mk.injEq, DrawnSite.mk.injEq] at h5
  exact h5.2.2

theorem coordRows_nodup {L : List ℕ} (h : L ≠ []) : (coordRows L).Nodup := by
  refine List.Nodup.of_map (pyCoordiIndex (L.map fun l : ℕ => (l : ℤ))) ?_
  rw [coordi_rows h]
  exact List.nodup_range.map fun a b => by simp

theorem rows_sum {d : ℕ} (L : Fin d → ℕ) (f : List ℤ → ℂ) :
    ((coordRows (List.ofFn L)).map f).sum = ∑ c : ∀ i, Fin (L i), f (List.ofFn fun i => ((c i : ℕ) : ℤ)) := by
  induction d generalizing f with
  | zero => simp [coordRows]
  | succ d ih =>
    rw [List.ofFn_succ, coordRows, List.map_flatMap, List.flatMap_def, List.sum_flatten, List.map_map]
    have e : ∀ i : ℕ, ((coordRows (List.ofFn fun i : Fin d => L i.succ)).map fun c => f ((i : ℤ) :: c)).sum =
        ∑ c : ∀ i : Fin d, Fin (L i.succ), f ((i : ℤ) :: List.ofFn fun i => ((c i : ℕ) : ℤ)) := fun i => ih (fun i => L i.succ) fun c => f ((i : ℤ) :: c)
    simp only [Function.comp_def, List.map_map]
    simp only [e]
    rw [← Equiv.sum_comp (Fin.consEquiv fun i => Fin (L i)), Fintype.sum_prod_type, ← List.sum_toFinset]
    · rw [List.toFinset_range, Finset.sum_range]
      refine Finset.sum_congr rfl fun x _ => Finset.sum_congr rfl fun y _ => ?_
      rw [List.ofFn_succ]
      rfl
    · exact List.nodup_range

theorem foldOnce_spec {l x : ℤ} (h0 : -l ≤ x) (h1 : x < 2 * l) : 0 ≤ foldOnce l x ∧ foldOnce l x < l ∧ l ∣ foldOnce l x - x := by
  unfold foldOnce
  dsimp only
  split_ifs
  · omega
  · exact ⟨by omega, by omega, ⟨1, by ring⟩⟩
  · exact ⟨by omega, by omega, ⟨-1, by ring⟩⟩
  · exact ⟨by omega, by omega, ⟨0, by ring⟩⟩

/-- The amount by which a coordinate is moved. -/
def moveBy (l : ℕ) (has : Bool) : ℤ := if has then (l : ℤ) / 2 - 1 else 0

theorem drawCell_ofFn {d : ℕ} (L : Fin d → ℕ) (has : Bool) (c : Fin d → ℤ) (i : Fin d) :
    (drawCell (List.ofFn L) (drawOffset (List.ofFn L) has) (List.ofFn c)).getD i 0 = foldOnce (L i) (c i + moveBy (L i) has) := by
  have hi := i.2
  have e : (drawCell (List.ofFn L) (drawOffset (List.ofFn L) has) (List.ofFn c))[(i : ℕ)]? = some (foldOnce (L i) (c i + moveBy (L i) has)) := by
    unfold drawCell drawOffset moveBy
    simp [Int.fdiv_eq_ediv_of_nonneg]
  rw [List.getD_eq_getElem?_getD, e]
  rfl

theorem moveBy_bounds {l : ℕ} (h : 0 < l) (has : Bool) {c : ℤ} (h0 : 0 ≤ c) (h1 : c < l) : -(l : ℤ) ≤ c + moveBy l has ∧ c + moveBy l has < 2 * (l : ℤ) := by
  unfold moveBy
  split_ifs <;> constructor <;> omega

end Feyn
