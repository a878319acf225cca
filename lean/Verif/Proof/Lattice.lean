import Verif.Spec.Lattice
import Mathlib.Data.List.Induction
import Mathlib.Tactic.Ring
import Mathlib.Tactic.Linarith

/-!
# Lattice indices: proofs
-/

namespace Feyn

theorem latVol_cons (s : ℤ) (ss : List ℤ) : latVol (s :: ss) = s * latVol ss := by
  have h : ∀ (l : List ℤ) (a : ℤ), l.foldl (fun vol s => vol * s) a = a * latVol l := by
    intro l
    induction l with
    | nil => intro a; simp [latVol]
    | cons x l ih =>
      intro a
      simp only [latVol, List.foldl_cons, one_mul]
      rw [ih, ih]; ring
  simp only [latVol, List.foldl_cons, one_mul]
  exact h ss s

theorem latVol_nil : latVol [] = 1 := rfl

theorem latVol_append (a b : List ℤ) : latVol (a ++ b) = latVol a * latVol b := by
  induction a with
  | nil => simp [latVol_nil]
  | cons x a ih => rw [List.cons_append, latVol_cons, latVol_cons, ih]; ring

theorem latVol_pos {l : List ℤ} (h : ∀ s ∈ l, 0 < s) : 0 < latVol l := by
  induction l with
  | nil => simp [latVol_nil]
  | cons x l ih =>
    rw [latVol_cons]
    exact mul_pos (h x (List.mem_cons_self ..)) (ih fun s q => h s (List.mem_cons_of_mem _ q))

theorem loop_to_index (rs : List ℤ) (h : ∀ s ∈ rs, 0 < s) (s0 : ℤ) :
    ∀ (idx : ℤ) (as acc : List ℤ), 0 ≤ idx → as.length = acc.length →
      vec2Index (s0 :: (rs.reverse ++ as)) (index2VecLoop rs idx acc) =
        (as.zip acc).foldl (fun index p => index * p.1 + p.2) idx := by
  induction rs with
  | nil => intro idx as acc _ _; simp [index2VecLoop, vec2Index]
  | cons s rs ih =>
    intro idx as acc h0 hl
    have hs : 0 < s := h s (List.mem_cons_self ..)
    rw [List.reverse_cons, List.append_assoc, List.singleton_append, index2VecLoop,
      ih (fun x q => h x (List.mem_cons_of_mem _ q)) _ _ _ (Int.tdiv_nonneg h0 hs.le) (by simp [hl])]
    rw [List.zip_cons_cons, List.foldl_cons, Int.tdiv_mul_add_tmod]

theorem index_to_loop (ss : List ℤ) : ∀ (vs acc : List ℤ) (v0 : ℤ), 0 ≤ v0 → InLat ss vs →
    0 ≤ (ss.zip vs).foldl (fun index p => index * p.1 + p.2) v0 ∧
    index2VecLoop ss.reverse ((ss.zip vs).foldl (fun index p => index * p.1 + p.2) v0) acc = v0 :: (vs ++ acc) := by
  induction ss using List.reverseRecOn with
  | nil =>
    intro vs acc v0 h0 h
    cases h
    exact ⟨h0, rfl⟩
  | append_singleton ss s ih =>
    intro vs acc v0 h0 h
    obtain ⟨us, ws, h1, h2, rfl⟩ : ∃ us ws, InLat ss us ∧ InLat [s] ws ∧ vs = us ++ ws := by
      have := List.forall₂_iff_get.1 h
      obtain ⟨h1, h2⟩ := (List.forall₂_take_append vs ss [s] (by exact h.flip)).flip,
        (List.forall₂_drop_append vs ss [s] (by exact h.flip)).flip
      exact ⟨_, _, h1, h2, (List.take_append_drop _ _).symm⟩
    obtain ⟨x, rfl, hx⟩ : ∃ x, ws = [x] ∧ 0 ≤ x ∧ x < s := by
      cases h2 with
      | cons a b => cases b; exact ⟨_, rfl, a⟩
    have hz : (ss ++ [s]).zip (us ++ [x]) = ss.zip us ++ [(s, x)] := by
      rw [List.zip_append h1.length_eq]; rfl
    rw [hz, List.foldl_append]
    obtain ⟨k1, k2⟩ := ih us (x :: acc) v0 h0 h1
    simp only [List.foldl_cons, List.foldl_nil]
    refine ⟨by nlinarith, ?_⟩
    rw [List.reverse_append, List.reverse_singleton, List.singleton_append, index2VecLoop]
    generalize (ss.zip us).foldl (fun index p => index * p.1 + p.2) v0 = y at *
    have e1 : (y * s + x).tdiv s = y := by
      rw [Int.tdiv_eq_ediv_of_nonneg (by nlinarith), add_comm, Int.add_mul_ediv_right _ _ (by omega),
        Int.ediv_eq_zero_of_lt hx.1 hx.2, zero_add]
    have e2 : (y * s + x).tmod s = x := by
      rw [Int.tmod_eq_emod_of_nonneg (by nlinarith), add_comm, Int.add_mul_emod_self_right, Int.emod_eq_of_lt hx.1 hx.2]
    rw [e1, e2, k2]
    simp

theorem index_bound (ss : List ℤ) : ∀ (vs : List ℤ) (v0 s0 : ℤ), v0 < s0 → InLat ss vs →
    (ss.zip vs).foldl (fun index p => index * p.1 + p.2) v0 < s0 * latVol ss := by
  induction ss with
  | nil => intro vs v0 s0 h1 h; cases h; simpa [latVol_nil] using h1
  | cons s ss ih =>
    intro vs v0 s0 h1 h
    cases h with
    | @cons _ x _ xs hx h =>
      rw [List.zip_cons_cons, List.foldl_cons, latVol_cons, ← mul_assoc]
      refine ih _ _ _ ?_ h
      nlinarith

theorem InLat.pos {size v : List ℤ} (h : InLat size v) : ∀ s ∈ size, 0 < s := by
  induction h with
  | nil => simp
  | cons a _ ih =>
    intro s q
    rcases List.mem_cons.1 q with rfl | q
    · omega
    · exact ih s q

theorem loop_inLat (rs : List ℤ) (h : ∀ s ∈ rs, 0 < s) (s0 : ℤ) :
    ∀ (idx : ℤ) (as acc : List ℤ), 0 ≤ idx → idx < s0 * latVol rs → InLat as acc →
      InLat (s0 :: (rs.reverse ++ as)) (index2VecLoop rs idx acc) := by
  induction rs with
  | nil =>
    intro idx as acc h0 h1 h2
    rw [latVol_nil, mul_one] at h1
    exact .cons ⟨h0, h1⟩ h2
  | cons s rs ih =>
    intro idx as acc h0 h1 h2
    have hs : 0 < s := h s (List.mem_cons_self ..)
    rw [List.reverse_cons, List.append_assoc, List.singleton_append, index2VecLoop]
    refine ih (fun x q => h x (List.mem_cons_of_mem _ q)) _ _ _ (Int.tdiv_nonneg h0 hs.le) ?_ (.cons ⟨?_, ?_⟩ h2)
    · rw [Int.tdiv_eq_ediv_of_nonneg h0]
      rw [latVol_cons] at h1
      exact Int.ediv_lt_of_lt_mul hs (by nlinarith)
    · exact Int.tmod_nonneg _ h0
    · exact Int.tmod_lt_of_pos _ hs

theorem latVol_reverse (l : List ℤ) : latVol l.reverse = latVol l := by
  induction l with
  | nil => rfl
  | cons x l ih => rw [List.reverse_cons, latVol_append, ih, latVol_cons, latVol_cons, latVol_nil]; ring

/-- On every lattice: a vector of the lattice goes to an index in `[0, Vol)` and back to itself, and an index in
`[0, Vol)` goes to a vector of the lattice and back to itself. -/
theorem index_round_trip {size : List ℤ} (h : LatOk size) :
    (∀ v, InLat size v → 0 ≤ vec2Index size v ∧ vec2Index size v < latVol size ∧
      index2Vec size (vec2Index size v) = v) ∧
    (∀ i, 0 ≤ i → i < latVol size → InLat size (index2Vec size i) ∧ vec2Index size (index2Vec size i) = i) := by
  obtain ⟨h0, hp⟩ := h
  obtain ⟨s0, ss, rfl⟩ := List.exists_cons_of_ne_nil h0
  have hss : ∀ s ∈ ss, 0 < s := fun s q => hp s (List.mem_cons_of_mem _ q)
  have hr : ∀ s ∈ ss.reverse, 0 < s := fun s q => hss s (List.mem_reverse.1 q)
  constructor
  · intro v hv
    cases hv with
    | @cons _ x _ xs hx hv =>
      obtain ⟨k1, k2⟩ := index_to_loop ss xs [] x hx.1 hv
      refine ⟨k1, ?_, ?_⟩
      · rw [latVol_cons]; exact index_bound ss xs x s0 hx.2 hv
      · simpa [index2Vec, vec2Index] using k2
  · intro i i0 i1
    rw [latVol_cons] at i1
    have k := loop_to_index ss.reverse hr s0 i [] [] i0 rfl
    have k2 := loop_inLat ss.reverse hr s0 i [] [] i0 (by rw [latVol_reverse]; exact i1) .nil
    simp only [List.reverse_reverse, List.append_nil, List.zip_nil_right, List.foldl_nil] at k k2
    exact ⟨k2, k⟩

/-! ### Relative coordinates -/

theorem shift1_diff {s a b : ℤ} (ha : 0 ≤ a ∧ a < s) (hb : 0 ≤ b ∧ b < s) : shift1 s (a - b) = (a - b) % s := by
  unfold shift1
  have hs : 0 < s := by omega
  by_cases c : a - b < 0
  · have : (a - b) % s = a - b + s := by
      rw [← Int.add_emod_right, Int.emod_eq_of_lt (by omega) (by omega)]
    simp only [c, if_true, this]
    rw [if_neg (by omega)]
  · rw [Int.emod_eq_of_lt (by omega) (by omega)]
    simp only [c, if_false]
    rw [if_neg (by omega)]

theorem shift_inLat {size a b : List ℤ} (ha : InLat size a) (hb : InLat size b) :
    InLat size (latShift size (List.zipWith (fun x y => x - y) a b)) := by
  induction ha generalizing b with
  | nil => cases hb; exact .nil
  | cons h _ ih =>
    cases hb with
    | cons h' hb =>
      simp only [List.zipWith_cons_cons, latShift]
      refine .cons ?_ (ih hb)
      rw [shift1_diff h h']
      exact ⟨Int.emod_nonneg _ (by omega), Int.emod_lt_of_pos _ (by omega)⟩

theorem translate_inLat {size v t : List ℤ} (hv : InLat size v) (ht : t.length = size.length) :
    InLat size (translate size v t) := by
  induction hv generalizing t with
  | nil => cases t with
    | nil => exact .nil
    | cons _ _ => simp at ht
  | cons h _ ih =>
    cases t with
    | nil => simp at ht
    | cons x t =>
      refine .cons ⟨Int.emod_nonneg _ (by omega), Int.emod_lt_of_pos _ (by omega)⟩ (ih (by simpa using ht))

theorem shift_translate {size a b t : List ℤ} (ha : InLat size a) (hb : InLat size b) (ht : t.length = size.length) :
    latShift size (List.zipWith (fun x y => x - y) (translate size a t) (translate size b t)) =
      latShift size (List.zipWith (fun x y => x - y) a b) := by
  induction ha generalizing b t with
  | nil => cases hb; cases t <;> rfl
  | @cons s x ss xs h _ ih =>
    cases hb with
    | @cons _ y _ ys h' hb =>
      cases t with
      | nil => simp at ht
      | cons z t =>
        simp only [translate, latShift, List.zipWith_cons_cons]
        have hs : 0 < s := by omega
        rw [shift1_diff ⟨Int.emod_nonneg _ (by omega), Int.emod_lt_of_pos _ hs⟩
          ⟨Int.emod_nonneg _ (by omega), Int.emod_lt_of_pos _ hs⟩, shift1_diff h h']
        refine congrArg₂ _ ?_ (ih hb (by simpa using ht))
        rw [← Int.sub_emod]
        congr 1
        ring

theorem shift_inj {size a b c : List ℤ} (ha : InLat size a) (hb : InLat size b) (hc : InLat size c)
    (e : latShift size (List.zipWith (fun x y => x - y) b a) = latShift size (List.zipWith (fun x y => x - y) c a)) :
    b = c := by
  induction ha generalizing b c with
  | nil => cases hb; cases hc; rfl
  | @cons s x ss xs h _ ih =>
    cases hb with
    | @cons _ y _ ys h' hb =>
      cases hc with
      | @cons _ z _ zs h'' hc =>
        simp only [latShift, List.zipWith_cons_cons, List.cons.injEq] at e
        obtain ⟨e1, e2⟩ := e
        rw [shift1_diff h' h, shift1_diff h'' h] at e1
        have hd : s ∣ (y - x) - (z - x) := (Int.emod_emod_of_dvd _ dvd_rfl ▸ Int.emod_eq_emod_iff_emod_sub_eq_zero.1 e1 |> Int.dvd_of_emod_eq_zero)
        have : y = z := by
          have hd' : s ∣ y - z := by
            have : (y - x) - (z - x) = y - z := by ring
            rwa [this] at hd
          obtain ⟨k, hk⟩ := hd'
          have : k = 0 := by
            by_contra hk0
            rcases lt_or_gt_of_ne hk0 with q | q
            · nlinarith [h'.1, h''.2, h'.2, h''.1]
            · nlinarith [h'.1, h''.2, h'.2, h''.1]
          subst this
          omega
        rw [this, ih hb hc e2]

theorem vec2Index_inj {size a b : List ℤ} (h : LatOk size) (ha : InLat size a) (hb : InLat size b)
    (e : vec2Index size a = vec2Index size b) : a = b := by
  rw [← ((index_round_trip h).1 a ha).2.2, ← ((index_round_trip h).1 b hb).2.2, e]

end Feyn
