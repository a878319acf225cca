import Verif.Proof.Vertex
import Verif.Props.First
import Verif.Spec.Fourier

/-!
# Equations for the three-point functions (C76)
-/

namespace Feyn
set_option linter.unusedSectionVars false

section
variable {F : Type} [Field F] [CharZero F] {L : Fin 2 → ℕ} {N : ℕ}

/-! ### Continued functions -/

theorem binAt_in (f : Fin N → F) (t : Fin N) : binAt f (t : ℕ) = f t := by
  unfold binAt
  rw [dif_pos ⟨by omega, by exact_mod_cast t.2⟩]
  rfl

theorem binAt_eq {f : Fin N → F} {g : ℤ → F} (h : ∀ t : Fin N, g (t : ℕ) = f t) {d : ℤ} (h0 : 0 ≤ d) (h1 : d < N) : binAt f d = g d := by
  obtain ⟨n, rfl⟩ := Int.eq_ofNat_of_zero_le h0
  have hn : n < N := by exact_mod_cast h1
  exact (binAt_in f ⟨n, hn⟩).trans (h ⟨n, hn⟩).symm

theorem signedAt_eq {f : Fin N → F} {g : ℤ → F} (h : AntiExt f g) {d : ℤ} (h0 : -(N : ℤ) ≤ d) (h1 : d < N) : signedAt f d = g d := by
  unfold signedAt
  split_ifs with c
  · rw [binAt_eq h.1 (by omega) (by omega), h.2, neg_neg]
  · exact binAt_eq h.1 (by omega) h1

theorem halfAt_eq {f : Fin N → F} {g : ℤ → F} (h : AntiExt f g) {d : ℤ} (h0 : -(N : ℤ) < d) (h1 : d < N) : halfAt f d = half g d := by
  unfold halfAt half
  rw [signedAt_eq h (by omega) (by omega), signedAt_eq h (by omega) h1]
  ring

theorem halfAt_sub {f : Fin N → F} {g : ℤ → F} (h : AntiExt f g) (a b : Fin N) : halfAt f ((a : ℤ) - b) = half g ((a : ℤ) - b) := by
  have := a.2
  have := b.2
  exact halfAt_eq h (by omega) (by omega)

theorem wShift_eq {W : WFun L N F} {p q : Bool × Bool} {r : Vec2 L} {g : ℤ → F} (h : PerExt (W p q r) g) (t : Fin N) : wShift W p q r t = half g (t : ℕ) := by
  have ht := t.2
  unfold wShift half
  simp only
  rw [binAt_in, ← h.1 t]
  by_cases c : ((t : ℕ) : ℤ) - 1 < 0
  · rw [if_pos c, binAt_eq h.1 (by omega) (by omega), h.2]
    ring
  · rw [if_neg c, binAt_eq h.1 (by omega) (by omega)]
    ring

theorem half_per {g : ℤ → F} (h : ∀ d, g (d + N) = g d) (d : ℤ) : half g (d + N) = half g d := by
  unfold half
  rw [show d + (N : ℤ) - 1 = d - 1 + N by ring, h, h]

theorem per_mul {X : Type} {g : ℤ → X} {n : ℤ} (h : ∀ d, g (d + n) = g d) (d z : ℤ) : g (d + n * z) = g d := by
  induction z using Int.induction_on with
  | zero => simp
  | succ z ih => rw [mul_add, mul_one, ← add_assoc, h, ih]
  | pred z ih => rw [mul_sub, mul_one, ← ih, ← h (d + (n * -z - n))]; congr 1; ring

/-- C76. `AddTwoG_To_GammaG` joins two propagators to both ends; times between bins, antiperiodic. -/
theorem C76_join (beta : F) {G : Bool → Fin N → F} {g : Bool → ℤ → F} (hg : ∀ s, AntiExt (G s) (g s)) (Γ : Three L N F) : addTwoG beta G Γ = joinG (beta / N) g Γ := by
  funext s r t t'
  unfold addTwoG joinG
  simp only [halfAt_sub (hg s)]
  simp only [Finset.mul_sum, Finset.sum_mul, Finset.sum_div]
  rw [Finset.sum_comm]
  refine Finset.sum_congr rfl fun a _ => Finset.sum_congr rfl fun b _ => ?_
  by_cases hN : (N : F) = 0
  · simp [hN]
  · field_simp

theorem sum_spin (f : Bool → F) : ∑ s : Bool, f s = f true + f false := Fintype.sum_bool f

/-- C76. `AddW_To_GGGammaG` is the ladder part of the self energy, with the full sum over spins. -/
theorem C76_ladder (r0 : Vec2 L) {W : WFun L N F} {w : Bool × Bool → Bool × Bool → ℤ → F} (hw : ∀ p q, PerExt (W p q r0) (w p q)) (GG : Three L N F) : addW r0 W GG = ladder w GG := by
  have key : ∀ (p q : Bool × Bool) (t1 t2 : Fin N), binAt (wShift W p q r0) (if ((t1 : ℕ) : ℤ) - (t2 : ℕ) < 0 then ((t1 : ℕ) : ℤ) - (t2 : ℕ) + N else ((t1 : ℕ) : ℤ) - (t2 : ℕ)) =
      half (w p q) (((t1 : ℕ) : ℤ) - (t2 : ℕ)) := by
    intro p q t1 t2
    have h1 := t1.2
    have h2 := t2.2
    have e : ∀ d : ℤ, 0 ≤ d → d < N → binAt (wShift W p q r0) d = half (w p q) d := fun d h0 h1 => binAt_eq (fun t => (wShift_eq (hw p q) t).symm) h0 h1
    split_ifs with c
    · rw [e _ (by omega) (by omega), half_per (hw p q).2]
    · exact e _ (by omega) (by omega)
  funext s r t1 t2
  unfold addW ladder
  rw [sum_spin]
  simp only [key]
  cases s <;> simp only [if_true, Bool.false_eq_true, if_false] <;> ring

/-! ### Interaction lines -/

theorem update_per {X : Type} {g : (Fin 2 → ℤ) → X} (h : ∀ x i, g (Function.update x i (x i + L i)) = g x) (x z : Fin 2 → ℤ) : g (fun i => x i + L i * z i) = g x := by
  have one : ∀ (x : Fin 2 → ℤ) (i : Fin 2) (z : ℤ), g (Function.update x i (x i + L i * z)) = g x := by
    intro x i z
    have := per_mul (g := fun d => g (Function.update x i d)) (n := L i) (fun d => by
      have := h (Function.update x i d) i
      simpa using this) (x i) z
    simpa using this
  have e : (fun i => x i + L i * z i) = Function.update (Function.update x 0 (x 0 + L 0 * z 0)) 1 (x 1 + L 1 * z 1) := by
    funext i
    fin_cases i <;> simp
  rw [e]
  have := one (Function.update x 0 (x 0 + L 0 * z 0)) 1 (z 1)
  simp only [ne_eq, one_ne_zero, not_false_eq_true, Function.update_of_ne] at this
  rw [this, one]

theorem lineW_sub {f : Vec2 L → Fin N → F} {g : (Fin 2 → ℤ) → ℤ → F} (h : ∀ r (t : Fin N), g (ints r) (t : ℕ) = f r t) (hx : ∀ x i, g (Function.update x i (x i + L i)) = g x)
    (ht : ∀ x t, g x (t + N) = g x t) (r r' : Vec2 L) (t u : Fin N) : f (r - r') (t - u) = g (ints r - ints r') ((t : ℤ) - u) := by
  rw [← h]
  obtain ⟨z, hz⟩ := fin_sub_mod t u
  have hr : ∀ i, ∃ z : ℤ, (((r i - r' i : Fin (L i)) : ℕ) : ℤ) = (r i : ℤ) - r' i + L i * z := fun i => fin_sub_mod (r i) (r' i)
  choose y hy using hr
  have e : ints (r - r') = fun i => (ints r - ints r') i + L i * y i := by
    funext i
    simp only [ints, Pi.sub_apply]
    exact hy i
  rw [e, update_per hx, hz]
  exact per_mul (ht _) _ _

variable {W0 : Bool × Bool → Bool × Bool → Vec2 L → F} {W : WFun L N F} {w0 : Bool × Bool → Bool × Bool → (Fin 2 → ℤ) → F} {w : Bool × Bool → Bool × Bool → (Fin 2 → ℤ) → ℤ → F}

theorem wTot_eq (h : Lines W0 W w0 w) (beta : F) (p q : Bool × Bool) (r : Vec2 L) (t : Fin N) : wTot beta N W0 W p q r t = lineW (beta / N) N (w0 p q) (w p q) (ints r) (t : ℕ) := by
  have hN : 0 < N := lt_of_le_of_lt (Nat.zero_le _) t.2
  unfold wTot lineW
  have h1 : ((t : ℕ) : ℤ) * ((N / N : ℕ) : ℤ) = (t : ℕ) := by rw [Nat.div_self hN]; simp
  have hp : PerExt (W p q r) (w p q (ints r)) := ⟨(h.smooth p q).1 r, (h.smooth p q).2.2 _⟩
  rw [h1, binAt_in, wShift_eq hp, ← (h.inst p q).1 r]
  have h2 : ((t : ℕ) = 0) ↔ (N : ℤ) ∣ ((t : ℕ) : ℤ) := by
    constructor
    · intro h; rw [h]; simp
    · intro h
      have := Nat.eq_zero_of_dvd_of_lt (by exact_mod_cast h) t.2
      exact this
  simp only [h2]
  ring

theorem lineW_per (h : Lines W0 W w0 w) (dt : F) (p q : Bool × Bool) : (∀ x i, lineW dt N (w0 p q) (w p q) (Function.update x i (x i + L i)) = lineW dt N (w0 p q) (w p q) x) ∧
    ∀ x d, lineW dt N (w0 p q) (w p q) x (d + N) = lineW dt N (w0 p q) (w p q) x d := by
  constructor
  · intro x i
    funext d
    unfold lineW half
    rw [(h.smooth p q).2.1, (h.smooth p q).2.1, (h.inst p q).2]
  · intro x d
    unfold lineW
    rw [half_per ((h.smooth p q).2.2 x)]
    simp

theorem wTot_sub (h : Lines W0 W w0 w) (beta : F) (p q : Bool × Bool) (r r' : Vec2 L) (t u : Fin N) :
    wTot beta N W0 W p q (r - r') (t - u) = lineW (beta / N) N (w0 p q) (w p q) (ints r - ints r') ((t : ℤ) - u) :=
  lineW_sub (f := wTot beta N W0 W p q) (fun r t => (wTot_eq h beta p q r t).symm) (lineW_per h _ p q).1 (lineW_per h _ p q).2 r r' t u

/-! ### Exchange of two lines -/

theorem addG_eq {G : Bool → Fin N → F} {g : Bool → ℤ → F} (hg : ∀ s, AntiExt (G s) (g s)) (GG : Three L N F) (k : Bool) (r1 r2 : Vec2 L) (t t' : Fin N) :
    addG G GG k r1 r2 t t' = if r1 = r2 then -(if k then triangle g GG true false r1 t t' else triangle g GG true true r1 t t' + triangle g GG false false r1 t t') else 0 := by
  unfold addG triangle
  simp only [halfAt_sub (hg _)]
  split_ifs <;> ring

/-- `AddTwoW_To_GammaW` of local loops, on one site. -/
theorem addTwoW_local (E : Phase F) (hL : ∀ i, 0 < L i) (hN : 0 < N) (beta : F) (h : Lines W0 W w0 w) {G : Bool → Fin N → F} {g : Bool → ℤ → F} (hg : ∀ s, AntiExt (G s) (g s))
    (GG : Three L N F) (k : Bool) (r : Vec2 L) (t t' : Fin N) :
    addTwoW E beta W0 W (addG G GG) k r r t t' = (if k then 4 else 1) * ∑ r' : Vec2 L, ∑ u : Fin N, ∑ u' : Fin N,
      lineW (beta / N) N (w0 (true, true) (true, true)) (w (true, true) (true, true)) (ints r - ints r') ((t : ℤ) - u) *
        (if k then triangle g GG true false r' u u' else triangle g GG true true r' u u' + triangle g GG false false r' u u') *
        lineW (beta / N) N (w0 (true, true) (true, true)) (w (true, true) (true, true)) (ints r - ints r') ((t' : ℤ) - u') := by
  have := addTwoW_conv E hL hN beta W0 W (addG G GG) k (r, t) (r, t')
  simp only at this
  rw [this, ← mul_neg]
  congr 1
  simp only [Fintype.sum_prod_type, Prod.fst_sub, Prod.snd_sub, wTot_sub h, addG_eq hg]
  rw [← Finset.sum_neg_distrib]
  refine Finset.sum_congr rfl fun r1 _ => ?_
  rw [← Finset.sum_neg_distrib]
  refine Finset.sum_congr rfl fun u _ => ?_
  rw [Finset.sum_eq_single r1]
  · rw [← Finset.sum_neg_distrib]
    refine Finset.sum_congr rfl fun u' _ => ?_
    rw [if_pos rfl]
    ring
  · intro r2 _ hr
    refine Finset.sum_eq_zero fun u' _ => ?_
    rw [if_neg (Ne.symm hr)]
    ring
  · simp

theorem half_exchange {f : Bool × Bool → Bool × Bool → ℤ → F} (p q : Bool × Bool) (h : ∀ d, f p q d = exchange p q (f (true, true) (true, true) d)) (d : ℤ) :
    half (f p q) d = exchange p q (half (f (true, true) (true, true)) d) := by
  unfold half
  rw [h, h]
  unfold exchange
  split_ifs <;> ring

theorem lattice_rep (hL : ∀ i, 0 < L i) (x : Fin 2 → ℤ) : ∃ (r : Vec2 L) (z : Fin 2 → ℤ), x = fun i => ints r i + L i * z i := by
  have h : ∀ i, (x i % L i).toNat < L i := fun i => by
    have := hL i
    have := Int.emod_nonneg (x i) (b := L i) (by omega)
    have := Int.emod_lt_of_pos (x i) (b := L i) (by omega)
    omega
  refine ⟨fun i => ⟨(x i % L i).toNat, h i⟩, fun i => x i / L i, ?_⟩
  funext i
  simp only [ints]
  have := hL i
  rw [Int.toNat_of_nonneg (Int.emod_nonneg (x i) (by omega))]
  exact (Int.emod_add_mul_ediv (x i) (L i)).symm

theorem time_rep (hN : 0 < N) (d : ℤ) : ∃ (t : Fin N) (z : ℤ), d = (t : ℕ) + N * z := by
  have h0 := Int.emod_nonneg d (b := N) (by omega)
  have h1 := Int.emod_lt_of_pos d (b := N) (by omega)
  refine ⟨⟨(d % N).toNat, by omega⟩, d / N, ?_⟩
  simp only
  rw [Int.toNat_of_nonneg h0]
  exact (Int.emod_add_mul_ediv d N).symm

theorem smooth_rep (hL : ∀ i, 0 < L i) (hN : 0 < N) (h : Lines W0 W w0 w) (x : Fin 2 → ℤ) (d : ℤ) : ∃ r t, ∀ p q, w p q x d = W p q r t := by
  obtain ⟨r, z, rfl⟩ := lattice_rep hL x
  obtain ⟨t, y, rfl⟩ := time_rep hN d
  refine ⟨r, t, fun p q => ?_⟩
  rw [update_per (g := w p q) (fun x i => funext fun d => (h.smooth p q).2.1 x i d), per_mul ((h.smooth p q).2.2 _), (h.smooth p q).1]

theorem inst_rep (hL : ∀ i, 0 < L i) (h : Lines W0 W w0 w) (x : Fin 2 → ℤ) : ∃ r, ∀ p q, w0 p q x = W0 p q r := by
  obtain ⟨r, z, rfl⟩ := lattice_rep hL x
  exact ⟨r, fun p q => by rw [update_per (h.inst p q).2, (h.inst p q).1]⟩

theorem lineW_exchange (hL : ∀ i, 0 < L i) (hN : 0 < N) (h : Lines W0 W w0 w) (he : Exchange W0 W) (dt : F) (p q : Bool × Bool) (x : Fin 2 → ℤ) (d : ℤ) :
    lineW dt N (w0 p q) (w p q) x d = exchange p q (lineW dt N (w0 (true, true) (true, true)) (w (true, true) (true, true)) x d) := by
  have h1 : ∀ d, w p q x d = exchange p q (w (true, true) (true, true) x d) := by
    intro d
    obtain ⟨r, t, e⟩ := smooth_rep hL hN h x d
    rw [e, e]
    exact he.2 p q r t
  have h2 : w0 p q x = exchange p q (w0 (true, true) (true, true) x) := by
    obtain ⟨r, e⟩ := inst_rep hL h x
    rw [e, e]
    exact he.1 p q r
  unfold lineW
  rw [half_exchange (f := fun p q => w p q x) p q h1, h2]
  unfold exchange
  split_ifs <;> ring

variable [StarRing F]

theorem ph_ext (hN : 0 < N) {f : Fin N → F} {g : ℤ → F} (h : AntiExt f g) (hp : ∀ t, f (Fin.rev t) = star (f t)) (d : ℤ) : star (g d) = -g (-1 - d) := by
  obtain ⟨t, z, rfl⟩ := time_rep hN d
  have base : ∀ t : Fin N, star (g (t : ℕ)) = -g (-1 - (t : ℕ)) := by
    intro t
    rw [h.1 t, ← hp t, ← h.1, Fin.val_rev]
    have ht := t.2
    have := h.2 (-1 - ((t : ℕ) : ℤ))
    rw [← this]
    congr 1
    omega
  have up : ∀ z : ℤ, g ((t : ℕ) + N * z) = g (t : ℕ) ∧ g (-1 - ((t : ℕ) + N * z)) = g (-1 - (t : ℕ)) ∨
      g ((t : ℕ) + N * z) = -g (t : ℕ) ∧ g (-1 - ((t : ℕ) + N * z)) = -g (-1 - (t : ℕ)) := by
    intro z
    have down : ∀ d, g (d - N) = -g d := fun d => by
      have := h.2 (d - N)
      rw [sub_add_cancel] at this
      rw [this, neg_neg]
    induction z using Int.induction_on with
    | zero => left; simp
    | succ z ih =>
      have e1 : g ((t : ℕ) + N * (z + 1)) = -g ((t : ℕ) + N * z) := by rw [← h.2]; congr 1; ring
      have e2 : g (-1 - ((t : ℕ) + N * (z + 1))) = -g (-1 - ((t : ℕ) + N * z)) := by rw [← down]; congr 1; ring
      rw [e1, e2]
      rcases ih with ⟨a, b⟩ | ⟨a, b⟩
      · right; rw [a, b]; exact ⟨rfl, rfl⟩
      · left; rw [a, b]; simp
    | pred z ih =>
      have e1 : g ((t : ℕ) + N * (-z - 1)) = -g ((t : ℕ) + N * -z) := by rw [← down]; congr 1; ring
      have e2 : g (-1 - ((t : ℕ) + N * (-z - 1))) = -g (-1 - ((t : ℕ) + N * -z)) := by rw [← h.2]; congr 1; ring
      rw [e1, e2]
      rcases ih with ⟨a, b⟩ | ⟨a, b⟩
      · right; rw [a, b]; exact ⟨rfl, rfl⟩
      · left; rw [a, b]; simp
  rcases up z with ⟨a, b⟩ | ⟨a, b⟩
  · rw [a, b]; exact base t
  · rw [a, b, star_neg, base t]

theorem star_two : star (2 : F) = 2 := by simp

theorem star_half (hN : 0 < N) {f : Fin N → F} {g : ℤ → F} (h : AntiExt f g) (hp : ∀ t, f (Fin.rev t) = star (f t)) (d : ℤ) : star (half g d) = -half g (-d) := by
  unfold half
  rw [star_div₀, star_add, ph_ext hN h hp, ph_ext hN h hp, star_two, show -1 - (d - 1) = -d by ring, show -1 - d = -d - 1 by ring]
  ring

theorem star_triangle (hN : 0 < N) {G : Bool → Fin N → F} {g : Bool → ℤ → F} (hg : ∀ s, AntiExt (G s) (g s)) (hp : ParticleHole G) {GG : Three L N F} (hh : Hermitian3 GG) (a b : Bool)
    (r : Vec2 L) (t t' : Fin N) : star (triangle g GG a b r t t') = -triangle g GG b a r t t' := by
  unfold triangle
  rw [star_add, star_mul', star_mul', star_half hN (hg b) (hp b), star_half hN (hg a) (hp a), ← hh a r t t', ← hh b r t' t, neg_sub, neg_sub]
  ring

theorem triangle_swap (g : Bool → ℤ → F) (GG : Three L N F) (a b : Bool) (r : Vec2 L) (t t' : Fin N) : triangle g GG b a r t' t = triangle g GG a b r t t' := by
  unfold triangle
  ring

theorem lineW_real (hL : ∀ i, 0 < L i) (hN : 0 < N) (h : Lines W0 W w0 w) (hr : RealW W0 W) {dt : F} (hd : star dt = dt) (p q : Bool × Bool) (x : Fin 2 → ℤ) (d : ℤ) :
    star (lineW dt N (w0 p q) (w p q) x d) = lineW dt N (w0 p q) (w p q) x d := by
  have h1 : ∀ d, star (w p q x d) = w p q x d := by
    intro d
    obtain ⟨r, t, e⟩ := smooth_rep hL hN h x d
    rw [e]
    exact hr.2 p q r t
  have h2 : star (w0 p q x) = w0 p q x := by
    obtain ⟨r, e⟩ := inst_rep hL h x
    rw [e]
    exact hr.1 p q r
  unfold lineW half
  rw [star_add, star_mul', star_div₀, star_add, h1, h1, hd, star_two]
  split_ifs
  · rw [h2]
  · rw [star_zero]

theorem exchange_mul (p q : Bool × Bool) (x : F) : exchange p q x = exchange p q 1 * x := by
  unfold exchange
  split_ifs <;> ring

/-- The sum over the loop for one choice of spins. -/
def loopSum (l : (Fin 2 → ℤ) → ℤ → F) (g : Bool → ℤ → F) (GG : Three L N F) (a b : Bool) (r : Vec2 L) (t t' : Fin N) : F :=
  ∑ r' : Vec2 L, ∑ u : Fin N, ∑ u' : Fin N, l (ints r - ints r') ((t : ℤ) - u) * triangle g GG a b r' u u' * l (ints r - ints r') ((t' : ℤ) - u')

theorem exchange_sum (hL : ∀ i, 0 < L i) (hN : 0 < N) (h : Lines W0 W w0 w) (he : Exchange W0 W) (dt : F) (g : Bool → ℤ → F) (GG : Three L N F) (s s' a b : Bool) (r : Vec2 L) (t t' : Fin N) :
    (∑ r' : Vec2 L, ∑ u : Fin N, ∑ u' : Fin N, lineW dt N (w0 (s', s) (a, b)) (w (s', s) (a, b)) (ints r - ints r') ((t : ℤ) - u) * triangle g GG a b r' u u' *
      lineW dt N (w0 (b, a) (s, s')) (w (b, a) (s, s')) (ints r - ints r') ((t' : ℤ) - u')) = exchange (s', s) (a, b) 1 * exchange (b, a) (s, s') 1 *
      loopSum (lineW dt N (w0 (true, true) (true, true)) (w (true, true) (true, true))) g GG a b r t t' := by
  unfold loopSum
  simp only [Finset.mul_sum]
  refine Finset.sum_congr rfl fun r' _ => Finset.sum_congr rfl fun u _ => Finset.sum_congr rfl fun u' _ => ?_
  rw [lineW_exchange hL hN h he dt (s', s), lineW_exchange hL hN h he dt (b, a), exchange_mul (s', s), exchange_mul (b, a)]
  ring

/-- C76. The part with two interaction lines, which the program computes from two of the spin channels with the help of conjugation, is the full sum over all spins and over all places and
times of the loop. -/
theorem C76_exchange (E : Phase F) (hL : ∀ i, 0 < L i) (hN : 0 < N) {beta : F} (hb : star beta = beta) (h : Lines W0 W w0 w) (he : Exchange W0 W) (hr : RealW W0 W)
    {G : Bool → Fin N → F} {g : Bool → ℤ → F} (hg : ∀ s, AntiExt (G s) (g s)) (hp : ParticleHole G) {GG : Three L N F} (hh : Hermitian3 GG) :
    addGToWW G (addTwoW E beta W0 W (addG G GG)) = exchangeTwo g (fun p q => lineW (beta / N) N (w0 p q) (w p q)) GG := by
  funext s r t t'
  have hd : star (beta / N) = beta / (N : F) := by rw [star_div₀, hb, star_natCast]
  have hs : ∀ a b, star (loopSum (lineW (beta / N) N (w0 (true, true) (true, true)) (w (true, true) (true, true))) g GG a b r t t') =
      -loopSum (lineW (beta / N) N (w0 (true, true) (true, true)) (w (true, true) (true, true))) g GG b a r t t' := by
    intro a b
    unfold loopSum
    simp only [star_sum, ← Finset.sum_neg_distrib]
    refine Finset.sum_congr rfl fun r' _ => Finset.sum_congr rfl fun u _ => Finset.sum_congr rfl fun u' _ => ?_
    rw [star_mul', star_mul', lineW_real hL hN h hr hd, lineW_real hL hN h hr hd, star_triangle hN hg hp hh]
    ring
  have hf : addTwoW E beta W0 W (addG G GG) false r r t t' = loopSum (lineW (beta / N) N (w0 (true, true) (true, true)) (w (true, true) (true, true))) g GG true true r t t' +
      loopSum (lineW (beta / N) N (w0 (true, true) (true, true)) (w (true, true) (true, true))) g GG false false r t t' := by
    rw [addTwoW_local E hL hN beta h hg]
    unfold loopSum
    simp only [Bool.false_eq_true, if_false, mul_add, add_mul, Finset.sum_add_distrib, one_mul]
  have ht : addTwoW E beta W0 W (addG G GG) true r r t t' = 4 * loopSum (lineW (beta / N) N (w0 (true, true) (true, true)) (w (true, true) (true, true))) g GG true false r t t' := by
    rw [addTwoW_local E hL hN beta h hg]
    unfold loopSum
    simp only [if_true]
  unfold addGToWW exchangeTwo
  simp only [hf, ht, halfAt_sub (hg _), sum_spin, exchange_sum hL hN h he]
  have h4 : star (4 : F) = 4 := by simp
  simp only [star_add, star_mul', hs, h4]
  cases s <;> simp [exchange, -mul_eq_mul_left_iff, -mul_eq_mul_right_iff, -add_right_inj, -add_left_inj] <;> ring

/-- C76. The equation that one update of the three-point function solves. -/
theorem C76_equation (E : Phase F) (hL : ∀ i, 0 < L i) (hN : 0 < N) {beta : F} (hb : star beta = beta) (r0 : Vec2 L) (h0 : ∀ i, (r0 i : ℕ) = 0) (h : Lines W0 W w0 w) (he : Exchange W0 W)
    (hr : RealW W0 W) {G : Bool → Fin N → F} {g : Bool → ℤ → F} (hg : ∀ s, AntiExt (G s) (g s)) (hp : ParticleHole G) {GG : Three L N F} (hh : Hermitian3 GG) (s : Bool) (r : Vec2 L) (t t' : Fin N) :
    newGGGammaG E beta r0 G W0 W GG s r t t' =
      (if s = true ∧ ints r = 0 then g true t * g true (-(t' : ℤ) - 1) else 0) +
        joinG (beta / N) g (fun s r t t' => ladder (fun p q => w p q 0) GG s r t t' - exchangeTwo g (fun p q => lineW (beta / N) N (w0 p q) (w p q)) GG s r t t') s r t t' := by
  have hw : ∀ p q, PerExt (W p q r0) (w p q 0) := by
    intro p q
    have : ints r0 = 0 := funext fun i => by simp [ints, h0 i]
    rw [← this]
    exact ⟨(h.smooth p q).1 r0, (h.smooth p q).2.2 _⟩
  unfold newGGGammaG
  rw [C76_exchange E hL hN hb h he hr hg hp hh, C76_ladder r0 hw, C76_join beta hg, C76_join beta hg]
  have e1 : simpleGG G s r t t' = (if s = true ∧ ints r = 0 then g true t * g true (-(t' : ℤ) - 1) else 0) := by
    unfold simpleGG
    have ht := t.2
    have ht' := t'.2
    rw [signedAt_eq (hg true) (by omega) (by omega), signedAt_eq (hg true) (by omega) (by omega)]
    refine if_congr (and_congr Iff.rfl ?_) rfl rfl
    rw [funext_iff]
    exact forall_congr' fun i => by simp [ints]
  rw [e1]
  congr 1
  unfold joinG
  rw [← Finset.sum_sub_distrib]
  refine Finset.sum_congr rfl fun a _ => ?_
  rw [← Finset.sum_sub_distrib]
  exact Finset.sum_congr rfl fun b _ => by ring

/-! ### Symmetry in the two times -/

theorem joinG_hermitian (hN : 0 < N) {dt : F} (hd : star dt = dt) {G : Bool → Fin N → F} {g : Bool → ℤ → F} (hg : ∀ s, AntiExt (G s) (g s)) (hp : ParticleHole G) {Γ : Three L N F}
    (hh : Hermitian3 Γ) : Hermitian3 (joinG dt g Γ) := by
  intro s r t t'
  unfold joinG
  rw [Finset.sum_comm]
  simp only [star_sum]
  refine Finset.sum_congr rfl fun a _ => Finset.sum_congr rfl fun b _ => ?_
  rw [star_mul', star_mul', star_mul', star_mul', star_half hN (hg s) (hp s), star_half hN (hg s) (hp s), hd, ← hh s r a b, neg_sub, neg_sub]
  ring

theorem even_ext (hN : 0 < N) {f : Fin N → F} {g : ℤ → F} (h : PerExt f g) (hp : ∀ t, f (Fin.rev t) = f t) (d : ℤ) : g (-1 - d) = g d := by
  obtain ⟨t, z, rfl⟩ := time_rep hN d
  rw [per_mul h.2, show -1 - (((t : ℕ) : ℤ) + N * z) = (N - 1 - (t : ℕ)) + N * (-1 - z) by ring, per_mul h.2, h.1, ← hp t, ← h.1, Fin.val_rev]
  congr 1
  have := t.2
  omega

theorem half_even (hN : 0 < N) {f : Fin N → F} {g : ℤ → F} (h : PerExt f g) (hp : ∀ t, f (Fin.rev t) = f t) (d : ℤ) : half g (-d) = half g d := by
  unfold half
  rw [← even_ext hN h hp (d - 1), ← even_ext hN h hp d, show -1 - (d - 1) = -d by ring, show -1 - d = -d - 1 by ring]
  ring

theorem exchange_swap (s s' a b : Bool) : exchange (b, a) (s, s') (1 : F) = exchange (s', s) (a, b) 1 := by
  cases s <;> cases s' <;> cases a <;> cases b <;> simp [exchange]

theorem ladder_hermitian (hL : ∀ i, 0 < L i) (hN : 0 < N) (h : Lines W0 W w0 w) (hr : RealW W0 W) (hv : EvenW W) {GG : Three L N F} (hh : Hermitian3 GG) (r0 : Vec2 L)
    (h0 : ints r0 = 0) : Hermitian3 (ladder (fun p q => w p q 0) GG) := by
  intro s r t t'
  unfold ladder
  rw [star_neg, star_sum]
  congr 1
  refine Finset.sum_congr rfl fun s' _ => ?_
  have hw : PerExt (W (s, s') (s', s) r0) (w (s, s') (s', s) 0) := by
    rw [← h0]
    exact ⟨(h.smooth _ _).1 r0, (h.smooth _ _).2.2 _⟩
  have hreal : ∀ d, star (w (s, s') (s', s) 0 d) = w (s, s') (s', s) 0 d := by
    intro d
    obtain ⟨r, t, e⟩ := smooth_rep hL hN h 0 d
    rw [e]
    exact hr.2 _ _ r t
  have h2 : star (half (w (s, s') (s', s) 0) ((t : ℤ) - t')) = half (w (s, s') (s', s) 0) ((t : ℤ) - t') := by
    unfold half
    rw [star_div₀, star_add, hreal, hreal, star_two]
  rw [star_mul', h2, ← hh s' r t t', ← half_even hN hw (hv _ _ r0), neg_sub]

theorem exchangeTwo_hermitian (hL : ∀ i, 0 < L i) (hN : 0 < N) (h : Lines W0 W w0 w) (he : Exchange W0 W) (hr : RealW W0 W) {dt : F} (hd : star dt = dt)
    {G : Bool → Fin N → F} {g : Bool → ℤ → F} (hg : ∀ s, AntiExt (G s) (g s)) (hp : ParticleHole G) {GG : Three L N F} (hh : Hermitian3 GG) :
    Hermitian3 (exchangeTwo g (fun p q => lineW dt N (w0 p q) (w p q)) GG) := by
  intro s r t t'
  unfold exchangeTwo
  simp only [exchange_sum hL hN h he]
  simp only [star_sum, star_mul']
  refine Finset.sum_congr rfl fun s' _ => ?_
  rw [star_half hN (hg s') (hp s'), neg_sub, neg_mul, ← mul_neg, ← Finset.sum_neg_distrib]
  congr 1
  refine Finset.sum_congr rfl fun a _ => ?_
  rw [← Finset.sum_neg_distrib]
  refine Finset.sum_congr rfl fun b _ => ?_
  have hc : star (exchange (s', s) (a, b) (1 : F)) = exchange (s', s) (a, b) 1 := by
    unfold exchange
    split_ifs <;> simp
  rw [exchange_swap s s' a b, hc, ← mul_neg]
  congr 1
  unfold loopSum
  rw [star_sum, ← Finset.sum_neg_distrib]
  refine Finset.sum_congr rfl fun r' _ => ?_
  simp only [star_sum, star_mul']
  rw [Finset.sum_comm, ← Finset.sum_neg_distrib]
  refine Finset.sum_congr rfl fun u _ => ?_
  rw [← Finset.sum_neg_distrib]
  refine Finset.sum_congr rfl fun u' _ => ?_
  rw [lineW_real hL hN h hr hd, lineW_real hL hN h hr hd, star_triangle hN hg hp hh, triangle_swap]
  ring

/-- C76. An update keeps the symmetry in the two times that its shortcut for the second spin relies on. -/
theorem C76_hermitian (E : Phase F) (hL : ∀ i, 0 < L i) (hN : 0 < N) {beta : F} (hb : star beta = beta) (r0 : Vec2 L) (h0 : ∀ i, (r0 i : ℕ) = 0) (h : Lines W0 W w0 w) (he : Exchange W0 W)
    (hr : RealW W0 W) (hv : EvenW W) {G : Bool → Fin N → F} {g : Bool → ℤ → F} (hg : ∀ s, AntiExt (G s) (g s)) (hp : ParticleHole G) {GG : Three L N F} (hh : Hermitian3 GG) :
    Hermitian3 (newGGGammaG E beta r0 G W0 W GG) := by
  have hd : star (beta / N) = beta / (N : F) := by rw [star_div₀, hb, star_natCast]
  have hi : ints r0 = 0 := funext fun i => by simp [ints, h0 i]
  have h1 := joinG_hermitian hN hd hg hp (Γ := fun s r t t' => ladder (fun p q => w p q 0) GG s r t t' - exchangeTwo g (fun p q => lineW (beta / N) N (w0 p q) (w p q)) GG s r t t')
    (fun s r t t' => by
      rw [star_sub, ← ladder_hermitian hL hN h hr hv hh r0 hi, ← exchangeTwo_hermitian hL hN h he hr hd hg hp hh])
  intro s r t t'
  rw [C76_equation E hL hN hb r0 h0 h he hr hg hp hh, C76_equation E hL hN hb r0 h0 h he hr hg hp hh, star_add, ← h1]
  congr 1
  by_cases c : s = true ∧ ints r = 0
  · rw [if_pos c, if_pos c, star_mul', ph_ext hN (hg true) (hp true), ph_ext hN (hg true) (hp true), show -1 - (-((t' : ℕ) : ℤ) - 1) = (t' : ℕ) by ring,
      show -1 - ((t : ℕ) : ℤ) = -((t : ℕ) : ℤ) - 1 by ring]
    ring
  · rw [if_neg c, if_neg c, star_zero]

/-- Continuations exist. -/
theorem antiExt_exists (hN : 0 < N) (f : Fin N → F) : ∃ g, AntiExt f g := by
  refine ⟨fun d => Int.negOnePow (d / N) • f ⟨(d % N).toNat, by
    have h0 := Int.emod_nonneg d (b := N) (by omega)
    have h1 := Int.emod_lt_of_pos d (b := N) (by omega)
    omega⟩, ?_, ?_⟩
  · intro t
    have ht := t.2
    have e1 : ((t : ℕ) : ℤ) / N = 0 := Int.ediv_eq_zero_of_lt (by omega) (by omega)
    have e2 : (((t : ℕ) : ℤ) % N).toNat = t := by rw [Int.emod_eq_of_lt (by omega) (by omega)]; simp
    simp only [e1, e2, Int.negOnePow_zero, one_smul, Fin.eta]
  · intro d
    have e1 : (d + N) / (N : ℤ) = d / N + 1 := by rw [Int.add_ediv_of_dvd_right ⟨1, by ring⟩, Int.ediv_self (by omega)]
    have e2 : (d + N) % (N : ℤ) = d % N := by simp
    simp only [e1, e2, Int.negOnePow_succ, Units.neg_smul]

theorem lines_exist (hL : ∀ i, 0 < L i) (hN : 0 < N) (W0 : Bool × Bool → Bool × Bool → Vec2 L → F) (W : WFun L N F) : ∃ w0 w, Lines W0 W w0 w := by
  have hx : ∀ (x : ℤ) i, (x % L i).toNat < L i := fun x i => by
    have := hL i
    have h0 := Int.emod_nonneg x (b := L i) (by omega)
    have h1 := Int.emod_lt_of_pos x (b := L i) (by omega)
    omega
  have ht : ∀ d : ℤ, (d % N).toNat < N := fun d => by
    have h0 := Int.emod_nonneg d (b := N) (by omega)
    have h1 := Int.emod_lt_of_pos d (b := N) (by omega)
    omega
  have er : ∀ r : Vec2 L, (fun i => (⟨(ints r i % L i).toNat, hx _ i⟩ : Fin (L i))) = r := by
    intro r
    funext i
    apply Fin.ext
    have := (r i).2
    simp only [ints]
    rw [Int.emod_eq_of_lt (by omega) (by omega)]
    simp
  have eu : ∀ (x : Fin 2 → ℤ) (j : Fin 2), (fun i => (⟨(Function.update x j (x j + L j) i % L i).toNat, hx _ i⟩ : Fin (L i))) = fun i => ⟨(x i % L i).toNat, hx _ i⟩ := by
    intro x j
    funext i
    apply Fin.ext
    simp only
    by_cases c : i = j
    · subst c
      simp
    · rw [Function.update_of_ne c]
  have et : ∀ t : Fin N, (⟨(((t : ℕ) : ℤ) % N).toNat, ht _⟩ : Fin N) = t := by
    intro t
    apply Fin.ext
    have := t.2
    simp only
    rw [Int.emod_eq_of_lt (by omega) (by omega)]
    simp
  refine ⟨fun p q x => W0 p q fun i => ⟨(x i % L i).toNat, hx _ i⟩, fun p q x d => W p q (fun i => ⟨(x i % L i).toNat, hx _ i⟩) ⟨(d % N).toNat, ht d⟩, ?_⟩
  constructor
  · intro p q
    refine ⟨fun r => ?_, fun x i => ?_⟩
    · exact congrArg _ (er r)
    · exact congrArg _ (eu x i)
  · intro p q
    refine ⟨fun r t => ?_, fun x i t => ?_, fun x t => ?_⟩
    · exact congr (congrArg _ (er r)) (et t)
    · exact congrFun (congrArg _ (eu x i)) _
    · simp

/-- C76. In a calculation without statistics the three-point function is hermitian in its two times after every update, whatever propagators and interactions with the symmetries follow each
other, so the equation of `C76_equation` holds at every update. -/
theorem C76_versions (E : Phase F) (hL : ∀ i, 0 < L i) (hN : 0 < N) {beta : F} (hb : star beta = beta) (r0 : Vec2 L) (h0 : ∀ i, (r0 i : ℕ) = 0) (G : ℕ → Bool → Fin N → F)
    (W0 : ℕ → Bool × Bool → Bool × Bool → Vec2 L → F) (W : ℕ → WFun L N F) (hp : ∀ n, ParticleHole (G n)) (he : ∀ n, Exchange (W0 n) (W n)) (hr : ∀ n, RealW (W0 n) (W n))
    (hv : ∀ n, EvenW (W n)) (n : ℕ) : Hermitian3 (versionsGG E beta r0 G W0 W (simpleGG (G 0)) n) := by
  induction n with
  | zero =>
    intro s r t t'
    obtain ⟨g, hg⟩ := antiExt_exists hN (G 0 true)
    have ht := t.2
    have ht' := t'.2
    change simpleGG (G 0) s r t' t = star (simpleGG (G 0) s r t t')
    unfold simpleGG
    by_cases c : s = true ∧ ∀ i, (r i : ℕ) = 0
    · rw [if_pos c, if_pos c, signedAt_eq hg (by omega) (by omega), signedAt_eq hg (by omega) (by omega), signedAt_eq hg (by omega) (by omega), signedAt_eq hg (by omega) (by omega), star_mul',
        ph_ext hN hg (hp 0 true), ph_ext hN hg (hp 0 true), show -1 - (-((t' : ℕ) : ℤ) - 1) = (t' : ℕ) by ring, show -1 - ((t : ℕ) : ℤ) = -((t : ℕ) : ℤ) - 1 by ring]
      ring
    · rw [if_neg c, if_neg c, star_zero]
  | succ n ih =>
    obtain ⟨w0, w, h⟩ := lines_exist hL hN (W0 n) (W n)
    choose g hg using fun s => antiExt_exists hN (G n s)
    exact C76_hermitian E hL hN hb r0 h0 h (he n) (hr n) (hv n) hg (hp n) ih

end

/-- C76. The bubble that the equation starts from is, at equal times, the polarisation of first order. -/
theorem C76_bubble {F : Type} [Field F] {L : Fin 2 → ℕ} {N : ℕ} (g : NArr F) (r : Vec2 L) (hr : ∀ i, (r i : ℕ) = 0) (t : Fin N) :
    simpleGG (fun s (t : Fin N) => g.get [pySpin s, 0, pySpin s, 0, 0, (t : ℕ)]) true r t t =
      pyPolarFirst N g [2 * pySpin true + pySpin true, 0, 2 * pySpin true + pySpin true, 0, 0, (t : ℕ)] := by
  have ht := t.2
  rw [pyPolarFirst_eq]
  unfold simpleGG
  rw [if_pos ⟨rfl, hr⟩]
  unfold signedAt
  rw [if_neg (by omega), if_pos (by omega)]
  unfold binAt
  rw [dif_pos ⟨by omega, by omega⟩, dif_pos ⟨by omega, by omega⟩]
  simp only [Int.toNat_natCast]
  have e : (((-((t : ℕ) : ℤ) - 1 + (N : ℤ)).toNat : ℕ) : ℤ) = (N : ℤ) - 1 - (t : ℕ) := by
    rw [Int.toNat_of_nonneg (by omega)]
    ring
  rw [e]
  ring

/-! ### Examples -/

section
open scoped ComplexConjugate

/-- A lattice with one site and two bins. -/
abbrev oneSite : Fin 2 → ℕ := fun _ => 1

/-- A propagator without particle-hole symmetry. -/
noncomputable def skewG : Bool → Fin 2 → ℂ := fun _ t => if t = 0 then 1 else 0

/-- An instantaneous exchange interaction. -/
noncomputable def onlyW0 : Bool × Bool → Bool × Bool → Vec2 oneSite → ℂ := fun p q _ => exchange p q 1

theorem onlyW0_ok : Exchange onlyW0 (fun _ _ _ (_ : Fin 2) => (0 : ℂ)) ∧ RealW onlyW0 (fun _ _ _ (_ : Fin 2) => (0 : ℂ)) ∧ EvenW (fun _ _ (_ : Vec2 oneSite) (_ : Fin 2) => (0 : ℂ)) := by
  refine ⟨⟨fun p q r => ?_, fun p q r t => ?_⟩, ⟨fun p q r => ?_, fun p q r t => star_zero _⟩, fun p q r t => rfl⟩
  · simp [onlyW0, exchange]
  · simp [exchange]
  · unfold onlyW0 exchange
    split_ifs <;> simp

theorem onlyW0_lines : Lines onlyW0 (fun _ _ _ (_ : Fin 2) => (0 : ℂ)) (fun p q _ => exchange p q 1) (fun _ _ _ _ => 0) :=
  ⟨fun _ _ => ⟨fun _ => rfl, fun _ _ => rfl⟩, fun _ _ => ⟨fun _ _ => rfl, fun _ _ _ => rfl, fun _ _ => rfl⟩⟩

/-- C76. Without particle-hole symmetry of the propagator the conjugate that the program takes for the second spin is not the sum over the spins: with the propagator 1, 0 the program has -3
where the sum is 3. -/
theorem C76_refuted_down (E : Phase ℂ) : ∃ (g : Bool → ℤ → ℂ) (GG : Three oneSite 2 ℂ), (∀ s, AntiExt (skewG s) (g s)) ∧ Hermitian3 GG ∧
    addGToWW skewG (addTwoW E 1 onlyW0 (fun _ _ _ (_ : Fin 2) => 0) (addG skewG GG)) false 0 0 0 = -3 ∧
    exchangeTwo g (fun p q => lineW ((1 : ℂ) / (2 : ℕ)) 2 (fun _ => exchange p q 1) fun _ _ => 0) GG false 0 0 0 = 3 := by
  obtain ⟨g, hg⟩ := antiExt_exists (N := 2) (by norm_num) (skewG true)
  have hg' : ∀ s, AntiExt (skewG s) (fun d => g d) := fun s => hg
  have g0 : g 0 = 1 := hg.1 0
  have g1 : g 1 = 0 := (hg.1 1).trans (by simp [skewG])
  have gm : g (-1) = 0 := by
    have := hg.2 (-1)
    norm_num at this
    rw [g1] at this
    exact neg_eq_zero.mp this.symm
  refine ⟨fun _ => g, fun _ _ t t' => if t = 0 ∧ t' = 0 then 1 else 0, hg', ?_, ?_, ?_⟩
  · intro s r t t'
    simp only
    by_cases c : t = 0 ∧ t' = 0
    · simp [c]
    · rw [if_neg (by tauto), if_neg c, star_zero]
  · unfold addGToWW
    simp only [addTwoW_local E (fun _ => Nat.one_pos) (by norm_num) 1 onlyW0_lines hg', halfAt_sub (hg' _)]
    simp [lineW, half, triangle, exchange, Fin.sum_univ_two, g0, gm]
    norm_num
  · simp [exchangeTwo, lineW, half, triangle, exchange, Fin.sum_univ_two, g0, gm]
    norm_num

/-- A propagator with particle-hole symmetry. -/
noncomputable def symG : Bool → Fin 2 → ℂ := fun _ t => if t = 0 then 1 + Complex.I else 1 - Complex.I

theorem symG_ph : ParticleHole symG := by
  intro s t
  fin_cases t <;> simp [symG, Fin.rev, sub_eq_add_neg]

theorem symG_hermitian : Hermitian3 (simpleGG symG : Three oneSite 2 ℂ) := by
  have h := onlyW0_ok
  exact C76_versions (N := 2) Phase.complex (fun _ => Nat.one_pos) (by norm_num) (beta := 1) (star_one _) 0 (fun _ => rfl) (fun _ => symG) (fun _ => onlyW0)
    (fun _ _ _ _ (_ : Fin 2) => 0) (fun _ => symG_ph) (fun _ => h.1) (fun _ => h.2.1) (fun _ => h.2.2) 0

theorem simple_sym : (simpleGG symG : Three oneSite 2 ℂ) true 0 0 0 = -2 ∧ ∀ r t t', (simpleGG symG : Three oneSite 2 ℂ) false r t t' = 0 := by
  constructor
  · have e : (1 + Complex.I) * (Complex.I - 1) = -2 := by ring_nf; rw [Complex.I_sq]; norm_num
    simp [simpleGG, signedAt, binAt, symG, e]
  · intro r t t'
    simp [simpleGG]

/-- The assumptions of `C76_exchange` hold and both sides are 12 for the spin up at equal times. -/
example : addGToWW symG (addTwoW Phase.complex 1 onlyW0 (fun _ _ _ (_ : Fin 2) => 0) (addG symG (simpleGG symG))) true 0 0 0 = 12 := by
  obtain ⟨g, hg⟩ := antiExt_exists (N := 2) (by norm_num) (symG true)
  have hg' : ∀ s, AntiExt (symG s) (fun d => g d) := fun s => hg
  have g0 : g 0 = 1 + Complex.I := hg.1 0
  have g1 : g 1 = 1 - Complex.I := (hg.1 1).trans (by simp [symG])
  have gm : g (-1) = -1 + Complex.I := by
    have := hg.2 (-1)
    norm_num at this
    rw [g1] at this
    rw [eq_comm, neg_eq_iff_eq_neg] at this
    rw [this]
    ring
  have h0 : half g 0 = Complex.I := by
    unfold half
    norm_num
    rw [g0, gm]
    ring
  have key := C76_exchange Phase.complex (fun _ => Nat.one_pos) (by norm_num) (star_one ℂ) onlyW0_lines onlyW0_ok.1 onlyW0_ok.2.1 hg' symG_ph symG_hermitian
  rw [key]
  have hl : ∀ (p q : Bool × Bool) (x : Fin 2 → ℤ) (d : ℤ), lineW ((1 : ℂ) / (2 : ℕ)) 2 (fun _ => exchange p q 1) (fun _ _ => 0) x d = if (2 : ℤ) ∣ d then exchange p q 1 else 0 := by
    intro p q x d
    simp [lineW, half]
  unfold exchangeTwo
  simp only [hl]
  simp [triangle, exchange, Fin.sum_univ_two, simple_sym, h0]
  ring_nf
  rw [Complex.I_sq]
  have h2 : (simpleGG symG : Three oneSite 2 ℂ) true (fun _ => 0) 0 0 = -2 := simple_sym.1
  rw [h2]
  norm_num

/-- A ladder: a constant interaction 1/2. -/
example : addW (0 : Vec2 oneSite) (fun p q _ (_ : Fin 2) => exchange p q (1 / 2)) (simpleGG symG) true 0 0 0 = (1 : ℂ) := by
  rw [C76_ladder 0 (w := fun p q _ => exchange p q (1 / 2)) (fun p q => ⟨fun _ => rfl, fun _ => rfl⟩)]
  simp [ladder, half, exchange, simple_sym]

end

end Feyn
