import Verif.Props.SelfCons
import Mathlib.Topology.Instances.Matrix
import Mathlib.Analysis.Asymptotics.SpecificAsymptotics
import Mathlib.Analysis.SpecificLimits.Basic
import Mathlib.Topology.Algebra.Module.FiniteDimension

/-!
# Limits of self-consistent calculations (C78)
-/

namespace Feyn

set_option linter.unusedSectionVars false

section
variable {F : Type} [Field F] [StarRing F] [CharZero F] {d : ℕ} {L : Fin d → ℕ} {N m : ℕ} [∀ i, NeZero (L i)] [NeZero N]

/-- What a version that ends well does. -/
theorem Scf.version_well {κ : ScfKinds} (hκ : κ.Good) {T : ScfTools F L N m} (hG : T.solveG.Good) (hW : T.solveW.Good) {s s' : Scf ℚ F L N m} (v : ℕ)
    {G0 : Plain L N (Matrix (GIdx m) (GIdx m) F)} {W0 : Plain L 1 (Matrix (WIdx m) (WIdx m) F)} {g0 g : Grid L N (Matrix (GIdx m) (GIdx m) F)} {J : Grid L 1 (Matrix (WIdx m) (WIdx m) F)}
    {w : Grid L N (Matrix (WIdx m) (WIdx m) F)} (hg0 : G0.Shows κ.g T.E g0) (hJ : W0.Shows κ.w0 T.E J) (hg : s.G.Shows κ.g T.E g) (hw : s.W.Shows κ.w T.E w)
    {bd : Ledger ℚ (Grid L 1 (Matrix (GIdx m) (GIdx m) F))} {bs : Ledger ℚ (Grid L N (Matrix (GIdx m) (GIdx m) F))} {bp : Ledger ℚ (Grid L N (Matrix (WIdx m) (WIdx m) F))}
    (td : Tracked κ.delta T.E false s.delta bd) (ed : s.delta.time = false) (ts : Tracked κ.g T.E true s.sigma bs) (tp : Tracked κ.w T.E false s.polar bp) (ep : s.polar.time = false)
    (hr : s.version κ T v G0 W0 = some (s', .well)) :
    ∃ g1 g2 w2, s'.G.Shows κ.g T.E g2 ∧ s'.W.Shows κ.w T.E w2 ∧
      DysonG ((κ.g.beta / N : ℚ) : F) g0 (bd.merge (some (ratio v)) (deltaFirst g J)).value bs.value g1 ∧
      DysonG ((κ.g.beta / N : ℚ) : F) g0 (bd.merge (some (ratio v)) (deltaFirst g J)).value (bs.merge (some (ratio v)) (sigmaFirst g1 w)).value g2 ∧
      DysonW ((κ.w.beta / N : ℚ) : F) J (bp.merge (some (ratio v)) (polarFirst g2)).value w2 ∧
      Tracked κ.delta T.E false s'.delta (bd.merge (some (ratio v)) (deltaFirst g J)) ∧ s'.delta.time = false ∧
      Tracked κ.g T.E true s'.sigma (bs.merge (some (ratio v)) (sigmaFirst g1 w)) ∧
      Tracked κ.w T.E false s'.polar (bp.merge (some (ratio v)) (polarFirst g2)) ∧ s'.polar.time = false := by
  obtain ⟨dG, hG1⟩ := shows_RT hκ.g.1 hg
  obtain ⟨dW, hW1⟩ := shows_RT hκ.w.1 hw
  obtain ⟨dJ, hJ1⟩ := shows_R hκ.w0.1 hκ.w0.2 hJ
  have plain : ∀ {N' : ℕ} {M : Type} [AddCommGroup M] [Module F M] (κ' : Kind) (f : Grid L N' M), (Plain.mk f false false).Shows κ' T.E f := fun κ' f => (κ'.view_false T.E f).symm
  unfold Scf.version at hr
  simp only [dG, dW, dJ] at hr
  have td1 := (td.merge (some (ratio v)) ed (plain κ.delta (deltaFirst g J))).fft [.K]
  have ts1 := ts.fft [.K, .W]
  have sd1 := C65_ledger κ.delta T.E one_pos (axes_pos L) hκ.delta.1 false _ _ td1
  have ss1 := C65_ledger κ.g T.E (bins_pos N) (axes_pos L) hκ.g.1 true _ _ ts1
  have es1 : (s.sigma.fft κ.g T.E [.K, .W]).time = true := (fft_R_time _ _ _).2.2.1
  have ed1 : ((s.delta.merge κ.delta T.E (some (ratio v)) ⟨deltaFirst g J, false, false⟩).fft κ.delta T.E [.K]).time = false := by
    rw [(fft_R_time _ _ _).1, merge_time, ed]
  split at hr
  · cases hr
  · simp at hr
  · rename_i G e1
    obtain ⟨g1, hg1, -⟩ := C63_faithful κ.g T.E (bins_pos N) (axes_pos L) hκ.g.1 G
    have q1 := ((C64_G κ.g κ.delta T.E hκ.g.1 hκ.g.2.1 hκ.g.2.2 hκ.delta.1 hκ.delta.2 T.solveG hG T.touchG _ _ _ _ _ _ hg0 ss1 sd1).1 G e1 g1).1 hg1
    obtain ⟨dG1, hG1'⟩ := shows_RT hκ.g.1 hg1
    simp only [dG1] at hr
    have ts2 := (ts1.merge (some (ratio v)) es1 (plain κ.g (sigmaFirst g1 w))).fft [.K, .W]
    have td2 := td1.fft [.K]
    have sd2 := C65_ledger κ.delta T.E one_pos (axes_pos L) hκ.delta.1 false _ _ td2
    have ss2 := C65_ledger κ.g T.E (bins_pos N) (axes_pos L) hκ.g.1 true _ _ ts2
    have ed2 := (fft_R_time κ.delta T.E ((s.delta.merge κ.delta T.E (some (ratio v)) ⟨deltaFirst g J, false, false⟩).fft κ.delta T.E [.K])).1.trans ed1
    split at hr
    · cases hr
    · simp at hr
    · rename_i G' e2
      obtain ⟨g2, hg2, -⟩ := C63_faithful κ.g T.E (bins_pos N) (axes_pos L) hκ.g.1 G'
      have q2 := ((C64_G κ.g κ.delta T.E hκ.g.1 hκ.g.2.1 hκ.g.2.2 hκ.delta.1 hκ.delta.2 T.solveG hG T.touchG _ _ _ _ _ _ hg0 ss2 sd2).1 G' e2 g2).1 hg2
      obtain ⟨dG2, hG2'⟩ := shows_RT hκ.g.1 hg2
      simp only [dG2] at hr
      have tp1 := (tp.merge (some (ratio v)) ep (plain κ.w (polarFirst g2))).fft [.K, .W]
      have sp1 := C65_ledger κ.w T.E (bins_pos N) (axes_pos L) hκ.w.1 false _ _ tp1
      split at hr
      · cases hr
      · simp at hr
      · rename_i W X e3
        simp only [Option.some.injEq, Prod.mk.injEq, and_true] at hr
        subst hr
        obtain ⟨w1, hw1, -⟩ := C63_faithful κ.w T.E (bins_pos N) (axes_pos L) hκ.w.1 W
        have q3 := (((C64_W κ.w κ.w0 T.E hκ.w.1 hκ.w.2.1 hκ.w.2.2 hκ.w0.1 hκ.w0.2 T.solveW hW T.touchW _ _ _ _ hJ1 sp1).1 W X e3).1 w1).1 hw1
        exact ⟨g1, g2, w1, hG2', (shows_RT hκ.w.1 hw1).2, q1, q2, q3, td2.fft [.R], (fft_R_time κ.delta _ _).2.1.trans ed2, ts2.fft [.R, .T], tp1.fft [.R, .T], (fft_R_time _ _ _).2.2.2⟩

end

/-! ### Limits -/

open Filter Topology

section
variable {S : Type} [Fintype S] [DecidableEq S] {d : ℕ} {L : Fin d → ℕ} {N : ℕ} [∀ i, NeZero (L i)] [NeZero N]

/-- Solutions of linear equations converge if the equations do and the limit is not singular. -/
theorem solve_tendsto {D : ℕ → Matrix S S ℂ} {D' : Matrix S S ℂ} (hD : Tendsto D atTop (𝓝 D')) (hd : D'.det ≠ 0) {X B : ℕ → Matrix S S ℂ} {X' B' : Matrix S S ℂ} (hB : Tendsto B atTop (𝓝 B'))
    (h : ∀ n, D n * X n = B n) (h' : D' * X' = B') : Tendsto X atTop (𝓝 X') := by
  have e1 : Tendsto (fun n => (D n).det) atTop (𝓝 D'.det) := (Continuous.matrix_det continuous_id).continuousAt.tendsto.comp hD
  have e2 : ∀ᶠ n in atTop, (D n).det ≠ 0 := e1.eventually_ne hd
  have e3 : Tendsto (fun n => (D n).adjugate) atTop (𝓝 D'.adjugate) := (Continuous.matrix_adjugate continuous_id).continuousAt.tendsto.comp hD
  have e4 : X' = (D'.det)⁻¹ • (D'.adjugate * B') := by
    rw [← h', ← mul_assoc, Matrix.adjugate_mul, Matrix.smul_mul, one_mul, smul_smul, inv_mul_cancel₀ hd, one_smul]
  rw [e4]
  have e5 : Tendsto (fun n => ((D n).det)⁻¹ • ((D n).adjugate * B n)) atTop (𝓝 ((D'.det)⁻¹ • (D'.adjugate * B'))) := (e1.inv₀ hd).smul (e3.mul hB)
  refine e5.congr' ?_
  filter_upwards [e2] with n hn
  rw [← h n, ← mul_assoc, Matrix.adjugate_mul, Matrix.smul_mul, one_mul, smul_smul, inv_mul_cancel₀ hn, one_smul]

/-- The full transform as a linear map. -/
noncomputable def fullLin (E : Phase ℂ) (σ : ℕ) : Grid L N (Matrix S S ℂ) →ₗ[ℂ] Grid L N (Matrix S S ℂ) where
  toFun f := full E σ f
  map_add' f g := by
    funext k n
    exact full_add E σ f g k n
  map_smul' x f := by
    funext k n
    exact full_smul E σ x f k n

theorem full_tendsto (E : Phase ℂ) (σ : ℕ) {f : ℕ → Grid L N (Matrix S S ℂ)} {f' : Grid L N (Matrix S S ℂ)} (h : Tendsto f atTop (𝓝 f')) :
    Tendsto (fun n => full E σ (f n)) atTop (𝓝 (full E σ f')) :=
  ((fullLin (S := S) (L := L) (N := N) E σ).continuous_of_finiteDimensional.continuousAt (x := f')).tendsto.comp h

theorem full_tendsto_inv (E : Phase ℂ) (σ : ℕ) (hσ : σ = 0 ∨ σ = 1) {f : ℕ → Grid L N (Matrix S S ℂ)} {f' : Grid L N (Matrix S S ℂ)} (h : Tendsto (fun n => full E σ (f n)) atTop (𝓝 (full E σ f'))) :
    Tendsto f atTop (𝓝 f') := by
  let e := LinearEquiv.ofBijective (fullLin (S := S) (L := L) (N := N) E σ) (full_bij E σ hσ)
  have c := (e.symm.toLinearMap.continuous_of_finiteDimensional.continuousAt (x := full E σ f')).tendsto.comp h
  have k : ∀ x, e.symm (full E σ x) = x := fun x => e.symm_apply_apply x
  simpa [Function.comp_def, k] using c

theorem fftn_tendsto (E : Phase ℂ) {f : ℕ → Grid L 1 (Matrix S S ℂ)} {f' : Grid L 1 (Matrix S S ℂ)} (h : Tendsto f atTop (𝓝 f')) (k : ∀ i, Fin (L i)) :
    Tendsto (fun n => fftn E (f n) k 0) atTop (𝓝 (fftn E f' k 0)) := by
  unfold fftn
  refine tendsto_finsetSum _ fun r _ => ?_
  exact ((tendsto_pi_nhds.1 (tendsto_pi_nhds.1 h r) 0)).const_smul _

/-- Solutions of the Dyson equation of the propagator converge. -/
theorem dysonG_tendsto (E : Phase ℂ) (dt : ℂ) {g0 : Grid L N (Matrix S S ℂ)} {δ : ℕ → Grid L 1 (Matrix S S ℂ)} {δ' : Grid L 1 (Matrix S S ℂ)} {s g : ℕ → Grid L N (Matrix S S ℂ)}
    {s' g' : Grid L N (Matrix S S ℂ)} (hδ : Tendsto δ atTop (𝓝 δ')) (hs : Tendsto s atTop (𝓝 s')) (h : ∀ n, DysonG dt g0 (δ n) (s n) (g n)) (hu : ∃! x, DysonG dt g0 δ' s' x)
    (h' : DysonG dt g0 δ' s' g') : Tendsto g atTop (𝓝 g') := by
  simp only [dysonG_iff E] at h hu h'
  have hd := (solutions E 1 (.inr rfl) _ _).1 hu
  refine full_tendsto_inv E 1 (.inr rfl) (tendsto_pi_nhds.2 fun k => tendsto_pi_nhds.2 fun n => ?_)
  have ts := tendsto_pi_nhds.1 (tendsto_pi_nhds.1 (full_tendsto E 1 hs) k) n
  refine solve_tendsto ?_ (hd k n) tendsto_const_nhds (fun i => h i k n) (h' k n)
  exact tendsto_const_nhds.sub ((((tendsto_const_nhds.mul ts).const_smul dt).add ((tendsto_const_nhds.mul (fftn_tendsto E hδ k)).const_smul _)).const_smul dt)

/-- Solutions of the Dyson equation of the interaction converge. -/
theorem dysonW_tendsto (E : Phase ℂ) (dt : ℂ) {J : Grid L 1 (Matrix S S ℂ)} {p w : ℕ → Grid L N (Matrix S S ℂ)} {p' w' : Grid L N (Matrix S S ℂ)} (hp : Tendsto p atTop (𝓝 p'))
    (h : ∀ n, DysonW dt J (p n) (w n)) (hu : ∃! x, DysonW dt J p' x) (h' : DysonW dt J p' w') : Tendsto w atTop (𝓝 w') := by
  simp only [dysonW_iff E] at h hu h'
  have hd := (solutions E 0 (.inl rfl) _ _).1 hu
  refine full_tendsto_inv E 0 (.inl rfl) (tendsto_pi_nhds.2 fun k => tendsto_pi_nhds.2 fun n => ?_)
  have ts := tendsto_pi_nhds.1 (tendsto_pi_nhds.1 (full_tendsto E 0 hp) k) n
  refine solve_tendsto ?_ (hd k n) ((tendsto_const_nhds.mul ts).mul tendsto_const_nhds) (fun i => h i k n) (h' k n)
  exact tendsto_const_nhds.sub (((tendsto_const_nhds.mul ts).const_smul dt).const_smul _)

end


/-! ### Means -/

theorem ratio_bounds (n : ℕ) : (1 : ℝ) / 11 ≤ ((ratio (n + 1) : ℚ) : ℝ) := by
  unfold ratio
  push_cast
  rw [div_le_div_iff₀ (by norm_num) (by positivity)]
  have : (0 : ℝ) ≤ n := by positivity
  linarith

/-- The sum of the weights grows without bounds. -/
theorem ratio_sum (v : ℕ) : Tendsto (fun n => ∑ i ∈ Finset.range n, ((ratio (v + i + 1) : ℚ) : ℝ)) atTop atTop := by
  have h : ∀ n : ℕ, (n : ℝ) * (1 / 11) ≤ ∑ i ∈ Finset.range n, ((ratio (v + i + 1) : ℚ) : ℝ) := by
    intro n
    have := Finset.card_nsmul_le_sum (Finset.range n) (fun i => ((ratio (v + i + 1) : ℚ) : ℝ)) (1 / 11) fun i _ => ratio_bounds (v + i)
    simpa using this
  exact tendsto_atTop_mono h (tendsto_natCast_atTop_atTop.atTop_mul_const (by norm_num))

/-- The weighted means of a sequence that converges. -/
theorem mean_tendsto (v : ℕ) {f : ℕ → ℂ} {x : ℂ} (h : Tendsto f atTop (𝓝 x)) :
    Tendsto (fun n => (∑ i ∈ Finset.range n, (ratio (v + i + 1) : ℚ))⁻¹ • ∑ i ∈ Finset.range n, (ratio (v + i + 1) : ℚ) • f i) atTop (𝓝 x) := by
  set a : ℕ → ℝ := fun i => ((ratio (v + i + 1) : ℚ) : ℝ) with ha
  have pos : ∀ i, 0 < a i := fun i => lt_of_lt_of_le (by norm_num) (ratio_bounds (v + i))
  have h0 : Tendsto (fun i => f i - x) atTop (𝓝 0) := by simpa using h.sub_const x
  have o1 : (fun i => (a i : ℂ) * (f i - x)) =o[atTop] a := by
    have : (fun i => (a i : ℂ) * (f i - x)) =o[atTop] fun i => (a i : ℂ) * (1 : ℂ) := (Asymptotics.isBigO_refl _ _).mul_isLittleO ((Asymptotics.isLittleO_one_iff ℂ).2 h0)
    refine Asymptotics.IsLittleO.of_norm_right (this.norm_right.congr_right fun i => ?_)
    rw [mul_one, Complex.norm_real]
  have o2 := o1.sum_range (fun i => (pos i).le) (ratio_sum v)
  have o3 : Tendsto (fun n => (∑ i ∈ Finset.range n, (a i : ℂ) * (f i - x)) / ((∑ i ∈ Finset.range n, a i : ℝ) : ℂ)) atTop (𝓝 0) := by
    rw [tendsto_zero_iff_norm_tendsto_zero]
    have := (Asymptotics.IsLittleO.norm_norm o2).tendsto_div_nhds_zero
    refine this.congr fun n => ?_
    rw [norm_div, Complex.norm_real]
  have o4 : Tendsto (fun n => (∑ i ∈ Finset.range n, (a i : ℂ) * (f i - x)) / ((∑ i ∈ Finset.range n, a i : ℝ) : ℂ) + x) atTop (𝓝 x) := by simpa using o3.add_const x
  refine o4.congr' ?_
  filter_upwards [eventually_gt_atTop 0] with n hn
  have hs : ((∑ i ∈ Finset.range n, a i : ℝ) : ℂ) ≠ 0 := by
    have : 0 < ∑ i ∈ Finset.range n, a i := Finset.sum_pos (fun i _ => pos i) ⟨0, Finset.mem_range.2 hn⟩
    exact_mod_cast this.ne'
  simp only [Rat.smul_def]
  have e1 : (((∑ i ∈ Finset.range n, (ratio (v + i + 1) : ℚ))⁻¹ : ℚ) : ℂ) = ((∑ i ∈ Finset.range n, a i : ℝ) : ℂ)⁻¹ := by
    rw [ha]
    push_cast
    rfl
  have e2 : ∀ i, ((ratio (v + i + 1) : ℚ) : ℂ) = (a i : ℂ) := fun i => by simp [ha]
  rw [e1]
  simp only [e2, mul_sub, Finset.sum_sub_distrib, ← Finset.sum_mul]
  have e3 : ∑ i ∈ Finset.range n, (a i : ℂ) = ((∑ i ∈ Finset.range n, a i : ℝ) : ℂ) := by push_cast; rfl
  rw [e3]
  field_simp
  ring

/-- Sequences defined step by step. -/
theorem exists_steps {X : Type} {P : ℕ → X → Prop} {R : ℕ → X → X → Prop} (h0 : ∃ x, P 0 x) (h : ∀ n x, P n x → ∃ y, P (n + 1) y ∧ R n x y) :
    ∃ f : ℕ → X, P 0 (f 0) ∧ (∀ n, P n (f n)) ∧ ∀ n, R n (f n) (f (n + 1)) := by
  classical
  obtain ⟨x0, p0⟩ := h0
  choose! y hy1 hy2 using h
  let f : ℕ → X := fun n => Nat.rec x0 (fun n x => y n x) n
  have hf : ∀ n, P n (f n) := by
    intro n
    induction n with
    | zero => exact p0
    | succ n ih => exact hy1 n _ ih
  exact ⟨f, p0, hf, fun n => hy2 n _ (hf n)⟩

section
variable {d : ℕ} {L : Fin d → ℕ} {N m : ℕ} [∀ i, NeZero (L i)] [NeZero N]

/-- A record that grows by one function at a time. -/
theorem ledger_value (v : ℕ) {A : Type} [AddCommGroup A] [Module ℚ A] {N : ℕ} {b : ℕ → Ledger ℚ (Grid L N A)} {f : ℕ → Grid L N A} (h0 : (b 0).entries = [])
    (h : ∀ n, b (n + 1) = (b n).merge (some (ratio (v + n + 1))) (f n)) {n : ℕ} (hn : 0 < n) :
    (b n).value = fun r t => (∑ i ∈ Finset.range n, (ratio (v + i + 1) : ℚ))⁻¹ • ∑ i ∈ Finset.range n, (ratio (v + i + 1) : ℚ) • f i r t := by
  have he : ∀ n, (b n).entries = (List.range n).map fun i => ((ratio (v + i + 1) : ℚ), f i) := by
    intro n
    induction n with
    | zero => simpa using h0
    | succ n ih => rw [h n, List.range_succ, List.map_append, ← ih]; rfl
  have hl : ∀ (g : ℕ → ℚ), ((List.range n).map g).sum = ∑ i ∈ Finset.range n, g i := fun g => by
    rw [Finset.sum_eq_multiset_sum, Finset.range_val, Multiset.range, Multiset.map_coe, Multiset.sum_coe]
  have hl' : ∀ (g : ℕ → A), ((List.range n).map g).sum = ∑ i ∈ Finset.range n, g i := fun g => by
    rw [Finset.sum_eq_multiset_sum, Finset.range_val, Multiset.range, Multiset.map_coe, Multiset.sum_coe]
  have ht : (b n).total = ∑ i ∈ Finset.range n, (ratio (v + i + 1) : ℚ) := by
    rw [Ledger.total, he, List.map_map, ← hl]
    rfl
  have hp : 1 / 1000 < ∑ i ∈ Finset.range n, (ratio (v + i + 1) : ℚ) := by
    have q : ∀ i : ℕ, (1 : ℚ) / 11 ≤ ratio (v + i + 1) := fun i => by
      have := ratio_bounds (v + i)
      rw [show ((1 : ℝ) / 11) = ((1 / 11 : ℚ) : ℝ) by norm_num] at this
      exact_mod_cast this
    have h1 := Finset.single_le_sum (f := fun i => (ratio (v + i + 1) : ℚ)) (fun i _ => le_trans (by norm_num) (q i)) (Finset.mem_range.2 hn)
    have := q 0
    exact lt_of_lt_of_le (by norm_num) (this.trans h1)
  unfold Ledger.value
  rw [if_pos (ht ▸ hp), ht]
  funext r t
  rw [Ledger.sum, he, List.map_map, ← hl']
  rfl

theorem ledger_tendsto (v : ℕ) {S : Type} [Fintype S] {N : ℕ} {b : ℕ → Ledger ℚ (Grid L N (Matrix S S ℂ))} {f : ℕ → Grid L N (Matrix S S ℂ)} {f' : Grid L N (Matrix S S ℂ)} (h0 : (b 0).entries = [])
    (h : ∀ n, b (n + 1) = (b n).merge (some (ratio (v + n + 1))) (f n)) (hf : Tendsto f atTop (𝓝 f')) : Tendsto (fun n => (b n).value) atTop (𝓝 f') := by
  have e : (fun n => fun r t => (∑ i ∈ Finset.range n, (ratio (v + i + 1) : ℚ))⁻¹ • ∑ i ∈ Finset.range n, (ratio (v + i + 1) : ℚ) • f i r t) =ᶠ[atTop] fun n => (b n).value := by
    filter_upwards [eventually_gt_atTop 0] with n hn
    exact (ledger_value v h0 h hn).symm
  refine Tendsto.congr' e (tendsto_pi_nhds.2 fun r => tendsto_pi_nhds.2 fun t => tendsto_pi_nhds.2 fun p => tendsto_pi_nhds.2 fun q => ?_)
  have := mean_tendsto v (tendsto_pi_nhds.1 (tendsto_pi_nhds.1 (tendsto_pi_nhds.1 (tendsto_pi_nhds.1 hf r) t) p) q)
  refine this.congr fun n => ?_
  rw [Matrix.smul_apply, Matrix.sum_apply]
  rfl

theorem entry_tendsto {I S : Type} {N : ℕ} {f : I → Grid L N (Matrix S S ℂ)} {l : Filter I} {f' : Grid L N (Matrix S S ℂ)} (hf : Tendsto f l (𝓝 f')) (r : ∀ i, Fin (L i)) (t : Fin N) (p q : S) :
    Tendsto (fun n => f n r t p q) l (𝓝 (f' r t p q)) := tendsto_pi_nhds.1 (tendsto_pi_nhds.1 (tendsto_pi_nhds.1 (tendsto_pi_nhds.1 hf r) t) p) q

theorem grid_tendsto {I S : Type} {N : ℕ} {f : I → Grid L N (Matrix S S ℂ)} {l : Filter I} {f' : Grid L N (Matrix S S ℂ)} (h : ∀ r t p q, Tendsto (fun n => f n r t p q) l (𝓝 (f' r t p q))) :
    Tendsto f l (𝓝 f') := tendsto_pi_nhds.2 fun r => tendsto_pi_nhds.2 fun t => tendsto_pi_nhds.2 fun p => tendsto_pi_nhds.2 fun q => h r t p q

theorem sigmaFirst_tendsto {g : ℕ → Grid L N (Matrix (GIdx m) (GIdx m) ℂ)} {w : ℕ → Grid L N (Matrix (WIdx m) (WIdx m) ℂ)} {g' : Grid L N (Matrix (GIdx m) (GIdx m) ℂ)}
    {w' : Grid L N (Matrix (WIdx m) (WIdx m) ℂ)} (hg : Tendsto g atTop (𝓝 g')) (hw : Tendsto w atTop (𝓝 w')) : Tendsto (fun n => sigmaFirst (g n) (w n)) atTop (𝓝 (sigmaFirst g' w')) := by
  refine grid_tendsto fun r t p q => ?_
  simp only [sigmaFirst, Matrix.of_apply]
  split_ifs
  · exact tendsto_finsetSum _ fun s _ => (tendsto_const_nhds.mul (entry_tendsto hg _ _ _ _)).mul (entry_tendsto hw _ _ _ _)
  · exact tendsto_const_nhds

theorem polarFirst_tendsto {g : ℕ → Grid L N (Matrix (GIdx m) (GIdx m) ℂ)} {g' : Grid L N (Matrix (GIdx m) (GIdx m) ℂ)} (hg : Tendsto g atTop (𝓝 g')) :
    Tendsto (fun n => polarFirst (g n)) atTop (𝓝 (polarFirst g')) := by
  refine grid_tendsto fun r t p q => ?_
  simp only [polarFirst, Matrix.of_apply]
  split_ifs
  · exact (tendsto_const_nhds.mul (entry_tendsto hg _ _ _ _)).mul (entry_tendsto hg _ _ _ _)
  · exact tendsto_const_nhds

theorem lastG_tendsto {g : ℕ → Grid L N (Matrix (GIdx m) (GIdx m) ℂ)} {g' : Grid L N (Matrix (GIdx m) (GIdx m) ℂ)} (hg : Tendsto g atTop (𝓝 g')) (r : ∀ i, Fin (L i)) (p q : GIdx m) :
    Tendsto (fun n => lastG (g n) r p q) atTop (𝓝 (lastG g' r p q)) := by
  have h : ∀ i : ℤ, Tendsto (fun n => binAt (fun t => g n r t p q) i) atTop (𝓝 (binAt (fun t => g' r t p q) i)) := by
    intro i
    unfold binAt
    split_ifs
    · exact entry_tendsto hg _ _ _ _
    · exact tendsto_const_nhds
  exact (tendsto_const_nhds.mul (h _)).sub (tendsto_const_nhds.mul (h _))

theorem deltaFirst_tendsto {g : ℕ → Grid L N (Matrix (GIdx m) (GIdx m) ℂ)} {g' : Grid L N (Matrix (GIdx m) (GIdx m) ℂ)} (J : Grid L 1 (Matrix (WIdx m) (WIdx m) ℂ)) (hg : Tendsto g atTop (𝓝 g')) :
    Tendsto (fun n => deltaFirst (g n) J) atTop (𝓝 (deltaFirst g' J)) := by
  refine grid_tendsto fun r t p q => ?_
  simp only [deltaFirst, Matrix.of_apply]
  refine Tendsto.add ?_ ?_
  · split_ifs
    · exact tendsto_finsetSum _ fun s _ => (tendsto_const_nhds.mul (lastG_tendsto hg _ _ _)).mul tendsto_const_nhds
    · exact tendsto_const_nhds
  · split_ifs
    · exact tendsto_finsetSum _ fun s _ => tendsto_finsetSum _ fun b _ => tendsto_finsetSum _ fun r' _ => (tendsto_const_nhds.mul (lastG_tendsto hg _ _ _)).mul tendsto_const_nhds
    · exact tendsto_const_nhds

end

section
variable {F : Type} [Field F] [StarRing F] [CharZero F] {d : ℕ} {L : Fin d → ℕ} {N m : ℕ} [∀ i, NeZero (L i)] [NeZero N]

theorem lastG_cont (hN : 2 ≤ N) (g : Grid L N (Matrix (GIdx m) (GIdx m) F)) (r : ∀ i, Fin (L i)) (p q : GIdx m) :
    lastG g r p q = (3 * cont 1 g r (N - 1) p q - cont 1 g r (N - 2) p q) / 2 := by
  have h : ∀ i : ℤ, 0 ≤ i → i < N → binAt (fun t => g r t p q) i = cont 1 g r i p q := by
    intro i h0 h1
    unfold binAt
    rw [dif_pos ⟨h0, h1⟩]
    have := cont_bin 1 g r ⟨i.toNat, by omega⟩
    simp only [Int.toNat_of_nonneg h0] at this
    rw [this]
  unfold lastG
  rw [h _ (by omega) (by omega), h _ (by omega) (by omega)]
  ring

/-- The self-consistent equations in terms of the functions of the program. -/
theorem selfConsistent_iff (hN : 2 ≤ N) (dt dt' : F) (g0 : Grid L N (Matrix (GIdx m) (GIdx m) F)) (J : Grid L 1 (Matrix (WIdx m) (WIdx m) F)) (δ : Grid L 1 (Matrix (GIdx m) (GIdx m) F))
    (σ : Grid L N (Matrix (GIdx m) (GIdx m) F)) (p : Grid L N (Matrix (WIdx m) (WIdx m) F)) (g : Grid L N (Matrix (GIdx m) (GIdx m) F)) (w : Grid L N (Matrix (WIdx m) (WIdx m) F)) :
    SelfConsistent dt dt' g0 J δ σ p g w ↔ DysonG dt g0 δ σ g ∧ DysonW dt' J p w ∧ σ = sigmaFirst g w ∧ p = polarFirst g ∧ δ = deltaFirst g J := by
  have es : ∀ r t s s' a b, sigmaFirst g w r t (s, a) (s', b) = if s = s' then -∑ u, g r t (u, a) (u, b) * w r t ((s, u), a) ((u, s), b) else 0 := by
    intro r t s s' a b
    simp only [sigmaFirst, Matrix.of_apply, ← Finset.sum_neg_distrib, neg_mul, one_mul]
  have ep : ∀ r t s s' u u' a b, polarFirst g r t ((s, s'), a) ((u, u'), b) = if u = s' ∧ u' = s then -(g r (Fin.rev t) (s, b) (s, a) * g r t (s', a) (s', b)) else 0 := by
    intro r t s s' u u' a b
    simp only [polarFirst, Matrix.of_apply, Prod.mk.injEq, neg_mul, one_mul, neg_neg]
  have ed : ∀ r s s' a b, deltaFirst g J r 0 (s, a) (s', b) =
      (if s = s' then ∑ u, (3 * cont 1 g r (N - 1) (u, a) (u, b) - cont 1 g r (N - 2) (u, a) (u, b)) / 2 * J r 0 ((s, u), a) ((u, s), b) else 0) -
      if s = s' ∧ a = b ∧ r = 0 then ∑ u, ∑ c, ∑ r', (3 * cont 1 g 0 (N - 1) (u, c) (u, c) - cont 1 g 0 (N - 2) (u, c) (u, c)) / 2 * J r' 0 ((s, s), a) ((u, u), c) else 0 := by
    intro r s s' a b
    simp only [deltaFirst, Matrix.of_apply, lastG_cont hN, Prod.mk.injEq, neg_mul, one_mul, neg_neg, Finset.sum_neg_distrib, and_assoc]
    refine (?_ : ∀ x y z : F, z = -y → x + z = x - y) _ _ _ ?_
    · rintro x y z rfl
      ring
    · split_ifs <;> simp only [neg_zero]
  constructor
  · intro h
    refine ⟨h.G, h.W, ?_, ?_, ?_⟩
    · funext r t
      ext ⟨s, a⟩ ⟨s', b⟩
      rw [h.sigma, es]
    · funext r t
      ext ⟨⟨s, s'⟩, a⟩ ⟨⟨u, u'⟩, b⟩
      rw [h.polar, ep]
    · funext r t
      obtain rfl := Subsingleton.elim t 0
      ext ⟨s, a⟩ ⟨s', b⟩
      rw [h.delta, ed]
  · rintro ⟨h1, h2, rfl, rfl, rfl⟩
    exact ⟨h1, h2, es, ep, ed⟩

end

section
variable {d : ℕ} {L : Fin d → ℕ} {N m : ℕ} [∀ i, NeZero (L i)] [NeZero N]

/-- What is known of the records in a version. -/
structure Records (L : Fin d → ℕ) (N m : ℕ) where
  bd : Ledger ℚ (Grid L 1 (Matrix (GIdx m) (GIdx m) ℂ))
  bs : Ledger ℚ (Grid L N (Matrix (GIdx m) (GIdx m) ℂ))
  bp : Ledger ℚ (Grid L N (Matrix (WIdx m) (WIdx m) ℂ))
  g : Grid L N (Matrix (GIdx m) (GIdx m) ℂ)
  w : Grid L N (Matrix (WIdx m) (WIdx m) ℂ)

structure Records.Ok (κ : ScfKinds) (E : Phase ℂ) (s : Scf ℚ ℂ L N m) (x : Records L N m) : Prop where
  G : s.G.Shows κ.g E x.g
  W : s.W.Shows κ.w E x.w
  td : Tracked κ.delta E false s.delta x.bd
  ed : s.delta.time = false
  ts : Tracked κ.g E true s.sigma x.bs
  tp : Tracked κ.w E false s.polar x.bp
  ep : s.polar.time = false

/-- A calculation that begins with nothing merged has records without entries. -/
theorem Scf.Fresh.trace {κ : ScfKinds} (hκ : κ.Good) {E : Phase ℂ} {s : Scf ℚ ℂ L N m} (h : s.Fresh) : ∃ x : Records L N m, x.Ok κ E s ∧ x.bd.entries = [] ∧ x.bs.entries = [] ∧ x.bp.entries = [] := by
  obtain ⟨fd, ed⟩ := h.delta
  obtain ⟨fs, es⟩ := h.sigma
  obtain ⟨fp, ep⟩ := h.polar
  obtain ⟨g, hg, -⟩ := C63_faithful κ.g E (bins_pos N) (axes_pos L) hκ.g.1 s.G
  obtain ⟨w, hw, -⟩ := C63_faithful κ.w E (bins_pos N) (axes_pos L) hκ.w.1 s.W
  refine ⟨⟨⟨fd, [], none⟩, ⟨fs, [], none⟩, ⟨fp, [], none⟩, g, w⟩, ⟨hg, hw, ?_, by rw [ed], ?_, ?_, by rw [ep]⟩, rfl, rfl, rfl⟩
  · rw [ed]; exact .new (κ.delta.view_false E fd).symm
  · rw [es]; exact .new (κ.g.view_false E fs).symm
  · rw [ep]; exact .new (κ.w.view_false E fp).symm

/-- **C78**: the self energies, polarisation, propagator and interaction of a calculation without Monte Carlo data, which begins with nothing merged and all of whose versions end well. If the self
energies and the polarisation converge, to limits whose Dyson equations have unique solutions, then the propagators and interactions converge too, and the limits solve the self-consistent
equations. -/
theorem C78_limit {κ : ScfKinds} (hκ : κ.Good) {T : ScfTools ℂ L N m} (hG : T.solveG.Good) (hW : T.solveW.Good) (hN : 2 ≤ N) {G0 : Plain L N (Matrix (GIdx m) (GIdx m) ℂ)}
    {W0 : Plain L 1 (Matrix (WIdx m) (WIdx m) ℂ)} {g0 : Grid L N (Matrix (GIdx m) (GIdx m) ℂ)} {J : Grid L 1 (Matrix (WIdx m) (WIdx m) ℂ)} (hg0 : G0.Shows κ.g T.E g0) (hJ : W0.Shows κ.w0 T.E J)
    {s : ℕ → Scf ℚ ℂ L N m} (hf : (s 0).Fresh) (v : ℕ) (hs : ∀ n, (s n).version κ T (v + n + 1) G0 W0 = some (s (n + 1), .well))
    {δ : ℕ → Grid L 1 (Matrix (GIdx m) (GIdx m) ℂ)} {σ g : ℕ → Grid L N (Matrix (GIdx m) (GIdx m) ℂ)} {p w : ℕ → Grid L N (Matrix (WIdx m) (WIdx m) ℂ)}
    (hδ : ∀ v, (s v).delta.toPlain.Shows κ.delta T.E (δ v)) (hσ : ∀ v, (s v).sigma.toPlain.Shows κ.g T.E (σ v)) (hp : ∀ v, (s v).polar.toPlain.Shows κ.w T.E (p v))
    (hg : ∀ v, (s v).G.Shows κ.g T.E (g v)) (hw : ∀ v, (s v).W.Shows κ.w T.E (w v))
    {δ' : Grid L 1 (Matrix (GIdx m) (GIdx m) ℂ)} {σ' : Grid L N (Matrix (GIdx m) (GIdx m) ℂ)} {p' : Grid L N (Matrix (WIdx m) (WIdx m) ℂ)}
    (tδ : Tendsto δ atTop (𝓝 δ')) (tσ : Tendsto σ atTop (𝓝 σ')) (tp : Tendsto p atTop (𝓝 p'))
    (uG : ∃! x, DysonG ((κ.g.beta / N : ℚ) : ℂ) g0 δ' σ' x) (uW : ∃! x, DysonW ((κ.w.beta / N : ℚ) : ℂ) J p' x) :
    ∃ g' w', Tendsto g atTop (𝓝 g') ∧ Tendsto w atTop (𝓝 w') ∧ SelfConsistent ((κ.g.beta / N : ℚ) : ℂ) ((κ.w.beta / N : ℚ) : ℂ) g0 J δ' σ' p' g' w' := by
  obtain ⟨x, -, hx, hR⟩ := exists_steps (X := Records L N m) (P := fun n x => x.Ok κ T.E (s n) ∧ (n = 0 → x.bd.entries = [] ∧ x.bs.entries = [] ∧ x.bp.entries = []))
    (R := fun n x y => ∃ g1, DysonG ((κ.g.beta / N : ℚ) : ℂ) g0 y.bd.value x.bs.value g1 ∧ DysonG ((κ.g.beta / N : ℚ) : ℂ) g0 y.bd.value y.bs.value y.g ∧
      DysonW ((κ.w.beta / N : ℚ) : ℂ) J y.bp.value y.w ∧ y.bd = x.bd.merge (some (ratio (v + n + 1))) (deltaFirst x.g J) ∧ y.bs = x.bs.merge (some (ratio (v + n + 1))) (sigmaFirst g1 x.w) ∧
      y.bp = x.bp.merge (some (ratio (v + n + 1))) (polarFirst y.g))
    (by obtain ⟨x, h1, h2⟩ := hf.trace hκ (E := T.E); exact ⟨x, h1, fun _ => h2⟩)
    (by
      rintro n x ⟨hx, -⟩
      obtain ⟨g1, g2, w2, a1, a2, a3, a4, a5, a6, a7, a8, a9, a10⟩ := Scf.version_well hκ hG hW (v + n + 1) hg0 hJ hx.G hx.W hx.td hx.ed hx.ts hx.tp hx.ep (hs n)
      exact ⟨⟨_, _, _, g2, w2⟩, ⟨⟨a1, a2, a6, a7, a8, a9, a10⟩, fun h => absurd h n.succ_ne_zero⟩, g1, a3, a4, a5, rfl, rfl, rfl⟩)
  choose g1 r1 r2 r3 rd rs rp using hR
  have un : ∀ {N' : ℕ} [NeZero N'] {M : Type} [AddCommGroup M] [Module ℂ M] {κ' : Kind} {q : Plain L N' M} {f g : Grid L N' M}, κ'.beta ≠ 0 → q.Shows κ' T.E f → q.Shows κ' T.E g → f = g := by
    intro N' _ M _ _ κ' q f g hb k k'
    obtain ⟨x, _, hu⟩ := C63_faithful κ' T.E (bins_pos N') (axes_pos L) hb q
    rw [hu f k, hu g k']
  have eδ : δ = fun v => (x v).bd.value := funext fun v => un hκ.delta.1 (hδ v) (C65_ledger κ.delta T.E one_pos (axes_pos L) hκ.delta.1 false _ _ (hx v).1.td)
  have eσ : σ = fun v => (x v).bs.value := funext fun v => un hκ.g.1 (hσ v) (C65_ledger κ.g T.E (bins_pos N) (axes_pos L) hκ.g.1 true _ _ (hx v).1.ts)
  have ep : p = fun v => (x v).bp.value := funext fun v => un hκ.w.1 (hp v) (C65_ledger κ.w T.E (bins_pos N) (axes_pos L) hκ.w.1 false _ _ (hx v).1.tp)
  have eg : g = fun v => (x v).g := funext fun v => un hκ.g.1 (hg v) (hx v).1.G
  have ew : w = fun v => (x v).w := funext fun v => un hκ.w.1 (hw v) (hx v).1.W
  obtain ⟨g', dg, -⟩ := id uG
  obtain ⟨w', dw, -⟩ := id uW
  rw [eδ] at tδ
  rw [eσ] at tσ
  rw [ep] at tp
  have tδ1 := tδ.comp (tendsto_add_atTop_nat 1)
  have tσ1 := tσ.comp (tendsto_add_atTop_nat 1)
  have tp1 := tp.comp (tendsto_add_atTop_nat 1)
  have tg : Tendsto (fun v => (x (v + 1)).g) atTop (𝓝 g') := dysonG_tendsto T.E _ tδ1 tσ1 r2 uG dg
  have tg1 : Tendsto g1 atTop (𝓝 g') := dysonG_tendsto T.E _ tδ1 tσ r1 uG dg
  have tw : Tendsto (fun v => (x (v + 1)).w) atTop (𝓝 w') := dysonW_tendsto T.E _ tp1 r3 uW dw
  have tg0 : Tendsto (fun v => (x v).g) atTop (𝓝 g') := (tendsto_add_atTop_iff_nat 1).1 tg
  have tw0 : Tendsto (fun v => (x v).w) atTop (𝓝 w') := (tendsto_add_atTop_iff_nat 1).1 tw
  obtain ⟨b1, b2, b3⟩ := (hx 0).2 rfl
  have kd := tendsto_nhds_unique tδ (ledger_tendsto v b1 rd (deltaFirst_tendsto J tg0))
  have ks := tendsto_nhds_unique tσ (ledger_tendsto v b2 rs (sigmaFirst_tendsto tg1 tw0))
  have kp := tendsto_nhds_unique tp (ledger_tendsto v b3 rp (polarFirst_tendsto tg))
  refine ⟨g', w', eg ▸ tg0, ew ▸ tw0, (selfConsistent_iff hN _ _ _ _ _ _ _ _ _).2 ⟨dg, dw, ks, kp, kd⟩⟩

end

section
variable {F : Type} [Field F] [StarRing F] [CharZero F] {d : ℕ} {L : Fin d → ℕ} {N m : ℕ} [∀ i, NeZero (L i)] [NeZero N]

/-- `G_Dyson` succeeds if the equation has a unique solution and no determinant is taken for zero. -/
theorem gDyson_done {κ κ0 : Kind} {E : Phase F} (hg : κ.beta ≠ 0 ∧ κ.hasTau = true ∧ κ.sym = false) (hd : κ0.beta ≠ 0 ∧ κ0.hasTau = false) {solve : Solver (GIdx m) F} (hs : solve.Good)
    {touches : Grid L N (Matrix (GIdx m) (GIdx m) F) → Bool} (ht : ∀ x, touches x = false) {G0 S : Plain L N (Matrix (GIdx m) (GIdx m) F)} {D : Plain L 1 (Matrix (GIdx m) (GIdx m) F)}
    {g0 σ : Grid L N (Matrix (GIdx m) (GIdx m) F)} {δ : Grid L 1 (Matrix (GIdx m) (GIdx m) F)} (h0 : G0.Shows κ E g0) (h1 : S.Shows κ E σ) (h2 : D.Shows κ0 E δ)
    (hu : ∃! x, DysonG ((κ.beta / N : ℚ) : F) g0 δ σ x) : ∃ G, gDyson κ κ0 E solve touches G0 D S = .done G := by
  have h := C64_G κ κ0 E hg.1 hg.2.1 hg.2.2 hd.1 hd.2 solve hs touches G0 S D g0 σ δ h0 h1 h2
  cases e : gDyson κ κ0 E solve touches G0 D S with
  | done G => exact ⟨G, rfl⟩
  | touchZero =>
    exfalso
    unfold gDyson at e
    simp only [factorise, ht] at e
    split at e
    · cases e
    · rename_i c
      split at c <;> simp_all
    · cases e
  | crash => exact absurd hu (h.2.1 e)

/-- `W_Dyson` likewise. -/
theorem wDyson_done {κ κ0 : Kind} {E : Phase F} (hg : κ.beta ≠ 0 ∧ κ.hasTau = true ∧ κ.sym = true) (hd : κ0.beta ≠ 0 ∧ κ0.hasTau = false) {solve : Solver (WIdx m) F} (hs : solve.Good)
    {touches : Grid L N (Matrix (WIdx m) (WIdx m) F) → Bool} (ht : ∀ x, touches x = false) {P : Plain L N (Matrix (WIdx m) (WIdx m) F)} {W0 : Plain L 1 (Matrix (WIdx m) (WIdx m) F)}
    {p : Grid L N (Matrix (WIdx m) (WIdx m) F)} {J : Grid L 1 (Matrix (WIdx m) (WIdx m) F)} (h0 : W0.Shows κ0 E J) (h1 : P.Shows κ E p)
    (hu : ∃! x, DysonW ((κ.beta / N : ℚ) : F) J p x) : ∃ W, wDyson κ κ0 E solve touches W0 P = .done W := by
  have h := C64_W κ κ0 E hg.1 hg.2.1 hg.2.2 hd.1 hd.2 solve hs touches W0 P J p h0 h1
  cases e : wDyson κ κ0 E solve touches W0 P with
  | done G => exact ⟨G, rfl⟩
  | touchZero =>
    exfalso
    unfold wDyson at e
    simp only [factorise, ht] at e
    split at e
    · cases e
    · rename_i c
      split at c <;> simp_all
    · cases e
  | crash => exact absurd hu (h.2.1.1 e)

/-- A version ends well if its three Dyson equations have unique solutions and no determinant is taken for zero. -/
theorem Scf.version_done {κ : ScfKinds} (hκ : κ.Good) {T : ScfTools F L N m} (hG : T.solveG.Good) (hW : T.solveW.Good) (tG : ∀ x, T.touchG x = false) (tW : ∀ x, T.touchW x = false)
    {s : Scf ℚ F L N m} (v : ℕ) {G0 : Plain L N (Matrix (GIdx m) (GIdx m) F)} {W0 : Plain L 1 (Matrix (WIdx m) (WIdx m) F)} {g0 g : Grid L N (Matrix (GIdx m) (GIdx m) F)}
    {J : Grid L 1 (Matrix (WIdx m) (WIdx m) F)} {w : Grid L N (Matrix (WIdx m) (WIdx m) F)} (hg0 : G0.Shows κ.g T.E g0) (hJ : W0.Shows κ.w0 T.E J) (hg : s.G.Shows κ.g T.E g) (hw : s.W.Shows κ.w T.E w)
    {bd : Ledger ℚ (Grid L 1 (Matrix (GIdx m) (GIdx m) F))} {bs : Ledger ℚ (Grid L N (Matrix (GIdx m) (GIdx m) F))} {bp : Ledger ℚ (Grid L N (Matrix (WIdx m) (WIdx m) F))}
    (td : Tracked κ.delta T.E false s.delta bd) (ed : s.delta.time = false) (ts : Tracked κ.g T.E true s.sigma bs) (tp : Tracked κ.w T.E false s.polar bp) (ep : s.polar.time = false)
    (u1 : ∃! x, DysonG ((κ.g.beta / N : ℚ) : F) g0 (bd.merge (some (ratio v)) (deltaFirst g J)).value bs.value x)
    (u2 : ∀ g1, DysonG ((κ.g.beta / N : ℚ) : F) g0 (bd.merge (some (ratio v)) (deltaFirst g J)).value bs.value g1 →
      ∃! x, DysonG ((κ.g.beta / N : ℚ) : F) g0 (bd.merge (some (ratio v)) (deltaFirst g J)).value (bs.merge (some (ratio v)) (sigmaFirst g1 w)).value x)
    (u3 : ∀ g1 g2, DysonG ((κ.g.beta / N : ℚ) : F) g0 (bd.merge (some (ratio v)) (deltaFirst g J)).value bs.value g1 →
      DysonG ((κ.g.beta / N : ℚ) : F) g0 (bd.merge (some (ratio v)) (deltaFirst g J)).value (bs.merge (some (ratio v)) (sigmaFirst g1 w)).value g2 →
      ∃! x, DysonW ((κ.w.beta / N : ℚ) : F) J (bp.merge (some (ratio v)) (polarFirst g2)).value x) :
    ∃ s', s.version κ T v G0 W0 = some (s', .well) := by
  obtain ⟨dG, hG1⟩ := shows_RT hκ.g.1 hg
  obtain ⟨dW, hW1⟩ := shows_RT hκ.w.1 hw
  obtain ⟨dJ, hJ1⟩ := shows_R hκ.w0.1 hκ.w0.2 hJ
  have plain : ∀ {N' : ℕ} {M : Type} [AddCommGroup M] [Module F M] (κ' : Kind) (f : Grid L N' M), (Plain.mk f false false).Shows κ' T.E f := fun κ' f => (κ'.view_false T.E f).symm
  unfold Scf.version
  simp only [dG, dW, dJ]
  have td1 := (td.merge (some (ratio v)) ed (plain κ.delta (deltaFirst g J))).fft [.K]
  have ts1 := ts.fft [.K, .W]
  have sd1 := C65_ledger κ.delta T.E one_pos (axes_pos L) hκ.delta.1 false _ _ td1
  have ss1 := C65_ledger κ.g T.E (bins_pos N) (axes_pos L) hκ.g.1 true _ _ ts1
  have es1 : (s.sigma.fft κ.g T.E [.K, .W]).time = true := (fft_R_time _ _ _).2.2.1
  obtain ⟨G, e1⟩ := gDyson_done hκ.g hκ.delta hG tG hg0 ss1 sd1 u1
  obtain ⟨g1, hg1, -⟩ := C63_faithful κ.g T.E (bins_pos N) (axes_pos L) hκ.g.1 G
  have q1 := ((C64_G κ.g κ.delta T.E hκ.g.1 hκ.g.2.1 hκ.g.2.2 hκ.delta.1 hκ.delta.2 T.solveG hG T.touchG _ _ _ _ _ _ hg0 ss1 sd1).1 G e1 g1).1 hg1
  obtain ⟨dG1, hG1'⟩ := shows_RT hκ.g.1 hg1
  rw [e1]
  simp only [dG1]
  have ts2 := (ts1.merge (some (ratio v)) es1 (plain κ.g (sigmaFirst g1 w))).fft [.K, .W]
  have td2 := td1.fft [.K]
  have sd2 := C65_ledger κ.delta T.E one_pos (axes_pos L) hκ.delta.1 false _ _ td2
  have ss2 := C65_ledger κ.g T.E (bins_pos N) (axes_pos L) hκ.g.1 true _ _ ts2
  obtain ⟨G', e2⟩ := gDyson_done hκ.g hκ.delta hG tG hg0 ss2 sd2 (u2 g1 q1)
  obtain ⟨g2, hg2, -⟩ := C63_faithful κ.g T.E (bins_pos N) (axes_pos L) hκ.g.1 G'
  have q2 := ((C64_G κ.g κ.delta T.E hκ.g.1 hκ.g.2.1 hκ.g.2.2 hκ.delta.1 hκ.delta.2 T.solveG hG T.touchG _ _ _ _ _ _ hg0 ss2 sd2).1 G' e2 g2).1 hg2
  obtain ⟨dG2, hG2'⟩ := shows_RT hκ.g.1 hg2
  rw [e2]
  simp only [dG2]
  have tp1 := (tp.merge (some (ratio v)) ep (plain κ.w (polarFirst g2))).fft [.K, .W]
  have sp1 := C65_ledger κ.w T.E (bins_pos N) (axes_pos L) hκ.w.1 false _ _ tp1
  obtain ⟨⟨W, X⟩, e3⟩ := wDyson_done hκ.w hκ.w0 hW tW hJ1 sp1 (u3 g1 g2 q1 q2)
  rw [e3]
  exact ⟨_, rfl⟩

/-- A record of one function only. -/
theorem Ledger.All.const {M : Type} [AddCommGroup M] [Module ℚ M] {N : ℕ} {f : Grid L N M} {b : Ledger ℚ (Grid L N M)} (h : b.All (· = f)) : b.value = f := by
  have key : ∀ l : List (ℚ × Grid L N M), (∀ e ∈ l, e.2 = f) → ∀ r n, (l.map fun e => e.1 • e.2 r n).sum = (l.map (·.1)).sum • f r n := by
    intro l
    induction l with
    | nil => intro _ r n; simp
    | cons e l ih =>
      intro k r n
      rw [List.map_cons, List.sum_cons, ih (fun x hx => k x (List.mem_cons_of_mem _ hx)), k e List.mem_cons_self, List.map_cons, List.sum_cons, add_smul]
  unfold Ledger.value
  split
  · rename_i c
    funext r n
    rw [Ledger.sum, key _ h.2.1, Ledger.total, smul_smul, inv_mul_cancel₀, one_smul]
    exact fun z => by
      rw [Ledger.total, z] at c
      norm_num at c
  · split
    · exact h.1
    · rename_i e
      exact h.2.2 _ e

theorem Plain.Shows.unique {κ : Kind} {E : Phase F} {M : Type} [AddCommGroup M] [Module F M] {q : Plain L N M} {f g : Grid L N M} (hb : κ.beta ≠ 0) (k : q.Shows κ E f) (k' : q.Shows κ E g) : f = g := by
  obtain ⟨x, _, hu⟩ := C63_faithful κ E (bins_pos N) (axes_pos L) hb q
  rw [hu f k, hu g k']

/-- The records of a calculation that stays the same. -/
structure Scf.Still (κ : ScfKinds) (E : Phase F) (s : Scf ℚ F L N m) (δ : Grid L 1 (Matrix (GIdx m) (GIdx m) F)) (σ : Grid L N (Matrix (GIdx m) (GIdx m) F)) (p : Grid L N (Matrix (WIdx m) (WIdx m) F))
    (g : Grid L N (Matrix (GIdx m) (GIdx m) F)) (w : Grid L N (Matrix (WIdx m) (WIdx m) F)) : Prop where
  delta : ∃ b : Ledger ℚ (Grid L 1 (Matrix (GIdx m) (GIdx m) F)), Tracked κ.delta E false s.delta b ∧ s.delta.time = false ∧ b.All (· = δ)
  sigma : ∃ b : Ledger ℚ (Grid L N (Matrix (GIdx m) (GIdx m) F)), Tracked κ.g E true s.sigma b ∧ b.All (· = σ)
  polar : ∃ b : Ledger ℚ (Grid L N (Matrix (WIdx m) (WIdx m) F)), Tracked κ.w E false s.polar b ∧ s.polar.time = false ∧ b.All (· = p)
  G : s.G.Shows κ.g E g
  W : s.W.Shows κ.w E w

theorem Scf.Still.shows {κ : ScfKinds} (hκ : κ.Good) {E : Phase F} {s : Scf ℚ F L N m} {δ : Grid L 1 (Matrix (GIdx m) (GIdx m) F)} {σ : Grid L N (Matrix (GIdx m) (GIdx m) F)}
    {p : Grid L N (Matrix (WIdx m) (WIdx m) F)} {g : Grid L N (Matrix (GIdx m) (GIdx m) F)} {w : Grid L N (Matrix (WIdx m) (WIdx m) F)} (h : s.Still κ E δ σ p g w) : s.Shows κ E δ σ p g w := by
  obtain ⟨bd, td, -, ad⟩ := h.delta
  obtain ⟨bs, ts, as⟩ := h.sigma
  obtain ⟨bp, tp, -, ap⟩ := h.polar
  have sd := C65_ledger κ.delta E one_pos (axes_pos L) hκ.delta.1 false _ _ td
  have ss := C65_ledger κ.g E (bins_pos N) (axes_pos L) hκ.g.1 true _ _ ts
  have sp := C65_ledger κ.w E (bins_pos N) (axes_pos L) hκ.w.1 false _ _ tp
  rw [ad.const] at sd
  rw [as.const] at ss
  rw [ap.const] at sp
  exact ⟨sd, ss, sp, h.G, h.W⟩

theorem Scf.Fresh.still {κ : ScfKinds} {E : Phase F} {s : Scf ℚ F L N m} {δ : Grid L 1 (Matrix (GIdx m) (GIdx m) F)} {σ : Grid L N (Matrix (GIdx m) (GIdx m) F)}
    {p : Grid L N (Matrix (WIdx m) (WIdx m) F)} {g : Grid L N (Matrix (GIdx m) (GIdx m) F)} {w : Grid L N (Matrix (WIdx m) (WIdx m) F)} (hf : s.Fresh) (h : s.Shows κ E δ σ p g w) :
    s.Still κ E δ σ p g w := by
  obtain ⟨fd, ed⟩ := hf.delta
  obtain ⟨fs, es⟩ := hf.sigma
  obtain ⟨fp, ep⟩ := hf.polar
  obtain ⟨sd, ss, sp, hg, hw⟩ := h
  refine ⟨⟨⟨δ, [], none⟩, ?_, by rw [ed], rfl, by simp, by simp⟩, ⟨⟨σ, [], none⟩, ?_, rfl, by simp, by simp⟩, ⟨⟨p, [], none⟩, ?_, by rw [ep], rfl, by simp, by simp⟩, hg, hw⟩
  · rw [ed] at sd ⊢; exact .new sd
  · rw [es] at ss ⊢; exact .new ss
  · rw [ep] at sp ⊢; exact .new sp

theorem Scf.Still.version {κ : ScfKinds} (hκ : κ.Good) {T : ScfTools F L N m} (hG : T.solveG.Good) (hW : T.solveW.Good) (tG : ∀ x, T.touchG x = false) (tW : ∀ x, T.touchW x = false) (hN : 2 ≤ N)
    {s : Scf ℚ F L N m} {δ : Grid L 1 (Matrix (GIdx m) (GIdx m) F)} {σ g0 : Grid L N (Matrix (GIdx m) (GIdx m) F)} {J : Grid L 1 (Matrix (WIdx m) (WIdx m) F)}
    {p : Grid L N (Matrix (WIdx m) (WIdx m) F)} {g : Grid L N (Matrix (GIdx m) (GIdx m) F)} {w : Grid L N (Matrix (WIdx m) (WIdx m) F)} (h : s.Still κ T.E δ σ p g w)
    (hc : SelfConsistent ((κ.g.beta / N : ℚ) : F) ((κ.w.beta / N : ℚ) : F) g0 J δ σ p g w)
    (uG : ∃! x, DysonG ((κ.g.beta / N : ℚ) : F) g0 δ σ x) (uW : ∃! x, DysonW ((κ.w.beta / N : ℚ) : F) J p x) (v : ℕ) {G0 : Plain L N (Matrix (GIdx m) (GIdx m) F)}
    {W0 : Plain L 1 (Matrix (WIdx m) (WIdx m) F)} (hg0 : G0.Shows κ.g T.E g0) (hJ : W0.Shows κ.w0 T.E J) :
    ∃ s', s.version κ T v G0 W0 = some (s', .well) ∧ s'.Still κ T.E δ σ p g w := by
  obtain ⟨c1, c2, c3, c4, c5⟩ := (selfConsistent_iff hN _ _ _ _ _ _ _ _ _).1 hc
  obtain ⟨bd, td, ed, ad⟩ := h.delta
  obtain ⟨bs, ts, as⟩ := h.sigma
  obtain ⟨bp, tp, ep, ap⟩ := h.polar
  have ad' := ad.merge (ratio v) (f := deltaFirst g J) c5.symm
  have as' := as.merge (ratio v) (f := sigmaFirst g w) c3.symm
  have ap' := ap.merge (ratio v) (f := polarFirst g) c4.symm
  have vd := ad'.const
  have vs := as'.const
  have vp := ap'.const
  have un : ∀ x, DysonG ((κ.g.beta / N : ℚ) : F) g0 (bd.merge (some (ratio v)) (deltaFirst g J)).value bs.value x → x = g := by
    intro x hx
    rw [vd, as.const] at hx
    exact uG.unique hx c1
  have un' : ∀ x, DysonG ((κ.g.beta / N : ℚ) : F) g0 (bd.merge (some (ratio v)) (deltaFirst g J)).value (bs.merge (some (ratio v)) (sigmaFirst g w)).value x → x = g := by
    intro x hx
    rw [vd, vs] at hx
    exact uG.unique hx c1
  obtain ⟨s', hs'⟩ := Scf.version_done hκ hG hW tG tW v hg0 hJ h.G h.W td ed ts tp ep (by rw [vd, as.const]; exact uG)
    (fun g1 k => by rw [un g1 k, vd, vs]; exact uG) (fun g1 g2 k1 k2 => by
      rw [un g1 k1] at k2
      rw [un' g2 k2, vp]
      exact uW)
  obtain ⟨g1, g2, w2, a1, a2, a3, a4, a5, a6, a7, a8, a9, a10⟩ := Scf.version_well hκ hG hW v hg0 hJ h.G h.W td ed ts tp ep hs'
  obtain rfl := un g1 a3
  obtain rfl := un' g2 a4
  rw [vp] at a5
  obtain rfl := uW.unique a5 c2
  exact ⟨s', hs', ⟨_, a6, a7, ad'⟩, ⟨_, a8, as'⟩, ⟨_, a9, a10, ap'⟩, a1, a2⟩

/-- **C78**: a calculation that starts, with nothing merged, from a solution of the self-consistent equations stays there: each of any number of versions ends well and the functions are the same
after it. (Two versions `v` of the same number are allowed.) -/
theorem C78_fixed {κ : ScfKinds} (hκ : κ.Good) {T : ScfTools F L N m} (hG : T.solveG.Good) (hW : T.solveW.Good) (tG : ∀ x, T.touchG x = false) (tW : ∀ x, T.touchW x = false) (hN : 2 ≤ N)
    {s : Scf ℚ F L N m} {δ : Grid L 1 (Matrix (GIdx m) (GIdx m) F)} {σ g0 : Grid L N (Matrix (GIdx m) (GIdx m) F)} {J : Grid L 1 (Matrix (WIdx m) (WIdx m) F)}
    {p : Grid L N (Matrix (WIdx m) (WIdx m) F)} {g : Grid L N (Matrix (GIdx m) (GIdx m) F)} {w : Grid L N (Matrix (WIdx m) (WIdx m) F)} (hf : s.Fresh) (h : s.Shows κ T.E δ σ p g w)
    (hc : SelfConsistent ((κ.g.beta / N : ℚ) : F) ((κ.w.beta / N : ℚ) : F) g0 J δ σ p g w)
    (uG : ∃! x, DysonG ((κ.g.beta / N : ℚ) : F) g0 δ σ x) (uW : ∃! x, DysonW ((κ.w.beta / N : ℚ) : F) J p x) (v : ℕ)
    (xs : List (Plain L N (Matrix (GIdx m) (GIdx m) F) × Plain L 1 (Matrix (WIdx m) (WIdx m) F))) (hx : ∀ x ∈ xs, x.1.Shows κ.g T.E g0 ∧ x.2.Shows κ.w0 T.E J) :
    ∃ s', s.run κ T v xs = some (s', List.replicate xs.length .well) ∧ s'.Shows κ T.E δ σ p g w := by
  replace h := hf.still h
  clear hf
  suffices ∃ s', s.run κ T v xs = some (s', List.replicate xs.length .well) ∧ s'.Still κ T.E δ σ p g w by
    obtain ⟨s', h1, h2⟩ := this
    exact ⟨s', h1, h2.shows hκ⟩
  induction xs generalizing v s with
  | nil => exact ⟨s, rfl, h⟩
  | cons x xs ih =>
    obtain ⟨s1, e1, h1⟩ := h.version hκ hG hW tG tW hN hc uG uW (v + 1) (hx x List.mem_cons_self).1 (hx x List.mem_cons_self).2
    obtain ⟨s2, e2, h2⟩ := ih (v + 1) (fun y hy => hx y (List.mem_cons_of_mem _ hy)) h1
    refine ⟨s2, ?_, h2⟩
    simp only [Scf.run, e1, Option.bind_eq_bind, Option.bind_some, e2, List.length_cons, List.replicate_succ]

/-- **C78**: the functions that the first version of a calculation leaves the same are exactly the solutions of the self-consistent equations. -/
theorem C78_unchanged {κ : ScfKinds} (hκ : κ.Good) {T : ScfTools F L N m} (hG : T.solveG.Good) (hW : T.solveW.Good) (tG : ∀ x, T.touchG x = false) (tW : ∀ x, T.touchW x = false) (hN : 2 ≤ N)
    {s : Scf ℚ F L N m} {δ : Grid L 1 (Matrix (GIdx m) (GIdx m) F)} {σ g0 : Grid L N (Matrix (GIdx m) (GIdx m) F)} {J : Grid L 1 (Matrix (WIdx m) (WIdx m) F)}
    {p : Grid L N (Matrix (WIdx m) (WIdx m) F)} {g : Grid L N (Matrix (GIdx m) (GIdx m) F)} {w : Grid L N (Matrix (WIdx m) (WIdx m) F)} (hf : s.Fresh) (h : s.Shows κ T.E δ σ p g w)
    (uG : ∃! x, DysonG ((κ.g.beta / N : ℚ) : F) g0 δ σ x) (uW : ∃! x, DysonW ((κ.w.beta / N : ℚ) : F) J p x) {v : ℕ} (hv : 0 < v)
    {G0 : Plain L N (Matrix (GIdx m) (GIdx m) F)} {W0 : Plain L 1 (Matrix (WIdx m) (WIdx m) F)} (hg0 : G0.Shows κ.g T.E g0) (hJ : W0.Shows κ.w0 T.E J) :
    (∃ s', s.version κ T v G0 W0 = some (s', .well) ∧ s'.Shows κ T.E δ σ p g w) ↔ SelfConsistent ((κ.g.beta / N : ℚ) : F) ((κ.w.beta / N : ℚ) : F) g0 J δ σ p g w := by
  constructor
  · rintro ⟨s', hs, h'⟩
    obtain ⟨fd, ed⟩ := hf.delta
    obtain ⟨fs, es⟩ := hf.sigma
    obtain ⟨fp, ep⟩ := hf.polar
    have td : Tracked κ.delta T.E false s.delta ⟨δ, [], none⟩ := by have := h.delta; rw [ed] at this ⊢; exact .new this
    have ts : Tracked κ.g T.E true s.sigma ⟨σ, [], none⟩ := by have := h.sigma; rw [es] at this ⊢; exact .new this
    have tp : Tracked κ.w T.E false s.polar ⟨p, [], none⟩ := by have := h.polar; rw [ep] at this ⊢; exact .new this
    obtain ⟨g1, g2, w2, a1, a2, a3, a4, a5, a6, a7, a8, a9, a10⟩ := Scf.version_well hκ hG hW v hg0 hJ h.G h.W td (by rw [ed]) ts tp (by rw [ep]) hs
    have sd := C65_ledger κ.delta T.E one_pos (axes_pos L) hκ.delta.1 false _ _ a6
    have ss := C65_ledger κ.g T.E (bins_pos N) (axes_pos L) hκ.g.1 true _ _ a8
    have sp := C65_ledger κ.w T.E (bins_pos N) (axes_pos L) hκ.w.1 false _ _ a9
    have vd := value_one δ (deltaFirst g J) hv
    have vs := value_one σ (sigmaFirst g1 w) hv
    have vp := value_one p (polarFirst g2) hv
    rw [vd] at sd a3 a4
    rw [vs] at ss a4
    rw [vp] at sp a5
    have k1 := h'.delta.unique hκ.delta.1 sd
    have k2 := h'.sigma.unique hκ.g.1 ss
    have k3 := h'.polar.unique hκ.w.1 sp
    obtain rfl := h'.G.unique hκ.g.1 a1
    obtain rfl := h'.W.unique hκ.w.1 a2
    rw [← k1, ← k2] at a4
    rw [← k3] at a5
    have z : (Ledger.mk σ [] none : Ledger ℚ (Grid L N (Matrix (GIdx m) (GIdx m) F))).value = σ := by simp [Ledger.value, Ledger.total]
    rw [← k1, z] at a3
    obtain rfl := uG.unique a3 a4
    exact (selfConsistent_iff hN _ _ _ _ _ _ _ _ _).2 ⟨a4, a5, k2, k3, k1⟩
  · intro hc
    obtain ⟨s', h1, h2⟩ := (hf.still h).version hκ hG hW tG tW hN hc uG uW v hg0 hJ
    exact ⟨s', h1, h2.shows hκ⟩

end

/-! ### A case: one site with an interaction of the up spins with the density of the down spins -/

/-- The bare propagator, the same at both times. -/
noncomputable def oneG0 : Grid (fun _ : Fin 1 => 1) 2 (Matrix (GIdx 1) (GIdx 1) ℂ) := fun _ _ => (1 / 2 : ℂ) • 1

noncomputable def oneJ : Grid (fun _ : Fin 1 => 1) 1 (Matrix (WIdx 1) (WIdx 1) ℂ) := fun _ _ => Matrix.of fun p q => if p.1 = (true, true) ∧ q.1 = (false, false) then -4 else 0

/-- The solution: the field of the down spins changes the propagator of the up spins. -/
noncomputable def oneG : Grid (fun _ : Fin 1 => 1) 2 (Matrix (GIdx 1) (GIdx 1) ℂ) := fun _ t => Matrix.of fun p q => if p.1 = q.1 ∧ ¬ (p.1 = true ∧ t = 0) then 1 / 2 else 0

noncomputable def oneTools : ScfTools ℂ (fun _ : Fin 1 => 1) 2 1 := ⟨Phase.complex, inverter _ _, fun _ => false, inverter _ _, fun _ => false⟩

theorem oneDelta : deltaFirst oneG oneJ = fun _ _ => Matrix.of fun p q => if p = q ∧ p.1 = true then 2 else 0 := by
  funext r t
  ext ⟨s, a⟩ ⟨s', b⟩
  obtain rfl := Subsingleton.elim a 0
  obtain rfl := Subsingleton.elim b 0
  obtain rfl := Subsingleton.elim r 0
  cases s <;> cases s' <;> (simp [deltaFirst, lastG, binAt, oneG, oneJ]; try norm_num)

theorem oneDyson (x : Grid (fun _ : Fin 1 => 1) 2 (Matrix (GIdx 1) (GIdx 1) ℂ)) :
    DysonG ((twoKinds.g.beta / (2 : ℕ) : ℚ) : ℂ) oneG0 (deltaFirst oneG oneJ) (fun _ _ => 0) x ↔ x = oneG := by
  rw [oneDelta]
  have sub : ∀ r : Fin 1 → Fin 1, ((r - fun _ => 0) - fun _ => 0) = r := fun r => Subsingleton.elim _ _
  unfold DysonG conv3 conv2
  rw [funext_iff]
  refine forall_congr' fun r => ?_
  rw [funext_iff]
  simp [oneG0, twoKinds, cont, Fin.forall_fin_two, oneG, ← Matrix.ext_iff, Matrix.mul_apply, sub]
  constructor
  · rintro ⟨⟨⟨a1, a2⟩, a3, a4⟩, ⟨a5, a6⟩, a7, a8⟩
    refine ⟨⟨⟨a1, a2⟩, ?_, ?_⟩, ⟨a5, a6⟩, ?_, ?_⟩
    · linear_combination 1 / 2 * a3 - 1 / 2 * a7
    · linear_combination 1 / 2 * a4 - 1 / 2 * a8
    · linear_combination 1 / 2 * a3 + 1 / 2 * a7
    · linear_combination 1 / 2 * a4 + 1 / 2 * a8
  · rintro ⟨⟨⟨a1, a2⟩, a3, a4⟩, ⟨a5, a6⟩, a7, a8⟩
    rw [a3, a4, a7, a8]
    refine ⟨⟨⟨a1, a2⟩, ?_, ?_⟩, ⟨a5, a6⟩, ?_, ?_⟩ <;> norm_num

theorem oneW (x : Grid (fun _ : Fin 1 => 1) 2 (Matrix (WIdx 1) (WIdx 1) ℂ)) :
    DysonW ((twoKinds.w.beta / (2 : ℕ) : ℚ) : ℂ) oneJ (polarFirst oneG) x ↔ x = fun _ _ => 0 := by
  unfold DysonW conv2' conv1
  rw [funext_iff]
  refine forall_congr' fun r => ?_
  rw [funext_iff]
  have sub : ∀ r : Fin 1 → Fin 1, ((r - fun _ => 0) - fun _ => 0) = r := fun r => Subsingleton.elim _ _
  simp [twoKinds, cont, Fin.forall_fin_two, polarFirst, oneJ, oneG, ← Matrix.ext_iff, Matrix.mul_apply, Fintype.sum_prod_type, sub]
  constructor <;> (intro h; simp_all)

/-- These functions solve the self-consistent equations. -/
theorem oneSolution : SelfConsistent ((twoKinds.g.beta / (2 : ℕ) : ℚ) : ℂ) ((twoKinds.w.beta / (2 : ℕ) : ℚ) : ℂ) oneG0 oneJ (deltaFirst oneG oneJ) (fun _ _ => 0) (polarFirst oneG) oneG fun _ _ => 0 :=
  (selfConsistent_iff le_rfl _ _ _ _ _ _ _ _ _).2 ⟨(oneDyson _).2 rfl, (oneW _).2 rfl, (sigmaFirst_zero _).symm, rfl, rfl⟩

/-- A calculation that starts from this solution. -/
noncomputable def oneStart : Scf ℚ ℂ (fun _ : Fin 1 => 1) 2 1 :=
  ⟨⟨oneG, false, false⟩, ⟨fun _ _ => 0, false, false⟩, ⟨⟨deltaFirst oneG oneJ, false, false⟩, none, none, none⟩, ⟨⟨fun _ _ => 0, false, false⟩, none, none, none⟩,
    ⟨⟨polarFirst oneG, false, false⟩, none, none, none⟩⟩

theorem oneStart_fresh : oneStart.Fresh := ⟨⟨_, rfl⟩, ⟨_, rfl⟩, ⟨_, rfl⟩⟩

theorem oneStart_shows : oneStart.Shows twoKinds oneTools.E (deltaFirst oneG oneJ) (fun _ _ => 0) (polarFirst oneG) oneG fun _ _ => 0 :=
  ⟨(Kind.view_false _ _ _).symm, (Kind.view_false _ _ _).symm, (Kind.view_false _ _ _).symm, (Kind.view_false _ _ _).symm, (Kind.view_false _ _ _).symm⟩

theorem oneG_unique : ∃! x, DysonG ((twoKinds.g.beta / (2 : ℕ) : ℚ) : ℂ) oneG0 (deltaFirst oneG oneJ) (fun _ _ => 0) x := ⟨oneG, (oneDyson _).2 rfl, fun _ h => (oneDyson _).1 h⟩

theorem oneW_unique : ∃! x, DysonW ((twoKinds.w.beta / (2 : ℕ) : ℚ) : ℂ) oneJ (polarFirst oneG) x := ⟨_, (oneW _).2 rfl, fun _ h => (oneW _).1 h⟩

/-- `C78_fixed` for it, with any number of versions. -/
example (n : ℕ) : ∃ s', oneStart.run twoKinds oneTools 0 (List.replicate n (⟨oneG0, false, false⟩, ⟨oneJ, false, false⟩)) = some (s', List.replicate n .well) ∧
    s'.Shows twoKinds oneTools.E (deltaFirst oneG oneJ) (fun _ _ => 0) (polarFirst oneG) oneG fun _ _ => 0 := by
  have h := C78_fixed twoKinds_good (T := oneTools) inverter_good inverter_good (fun _ => rfl) (fun _ => rfl) le_rfl oneStart_fresh oneStart_shows oneSolution oneG_unique oneW_unique 0
    (List.replicate n (⟨oneG0, false, false⟩, ⟨oneJ, false, false⟩)) (fun x hx => by
      rw [List.eq_of_mem_replicate hx]
      exact ⟨(Kind.view_false _ _ _).symm, (Kind.view_false _ _ _).symm⟩)
  rwa [List.length_replicate] at h

/-- There is a calculation without end as in `C78_limit`. -/
example : ∃ (s : ℕ → Scf ℚ ℂ (fun _ : Fin 1 => 1) 2 1) (g' : Grid (fun _ : Fin 1 => 1) 2 (Matrix (GIdx 1) (GIdx 1) ℂ)) (w' : Grid (fun _ : Fin 1 => 1) 2 (Matrix (WIdx 1) (WIdx 1) ℂ)),
    (∀ v, (s v).version twoKinds oneTools (v + 1) ⟨oneG0, false, false⟩ ⟨oneJ, false, false⟩ = some (s (v + 1), .well)) ∧
    SelfConsistent ((twoKinds.g.beta / (2 : ℕ) : ℚ) : ℂ) ((twoKinds.w.beta / (2 : ℕ) : ℚ) : ℂ) oneG0 oneJ (deltaFirst oneG oneJ) (fun _ _ => 0) (polarFirst oneG) g' w' := by
  have h0 : (Plain.mk oneG0 false false).Shows twoKinds.g oneTools.E oneG0 := (Kind.view_false _ _ _).symm
  have h1 : (Plain.mk oneJ false false).Shows twoKinds.w0 oneTools.E oneJ := (Kind.view_false _ _ _).symm
  obtain ⟨s, e0, hP, hR⟩ := exists_steps (X := Scf ℚ ℂ (fun _ : Fin 1 => 1) 2 1)
    (P := fun n s => (n = 0 → s = oneStart) ∧ s.Still twoKinds oneTools.E (deltaFirst oneG oneJ) (fun _ _ => 0) (polarFirst oneG) oneG fun _ _ => 0)
    (R := fun n s s' => s.version twoKinds oneTools (n + 1) ⟨oneG0, false, false⟩ ⟨oneJ, false, false⟩ = some (s', .well)) ⟨oneStart, fun _ => rfl, oneStart_fresh.still oneStart_shows⟩
    (fun n s hs => by
      obtain ⟨s', a, b⟩ := hs.2.version twoKinds_good (T := oneTools) inverter_good inverter_good (fun _ => rfl) (fun _ => rfl) le_rfl oneSolution oneG_unique oneW_unique (n + 1) h0 h1
      exact ⟨s', ⟨fun h => absurd h n.succ_ne_zero, b⟩, a⟩)
  have sh := fun v => (hP v).2.shows twoKinds_good
  obtain ⟨g', w', -, -, h⟩ := C78_limit twoKinds_good (T := oneTools) inverter_good inverter_good le_rfl h0 h1 (by rw [e0.1 rfl]; exact oneStart_fresh) 0 (fun n => by rw [zero_add]; exact hR n) (fun v => (sh v).delta) (fun v => (sh v).sigma)
    (fun v => (sh v).polar) (fun v => (sh v).G) (fun v => (sh v).W) tendsto_const_nhds tendsto_const_nhds tendsto_const_nhds oneG_unique oneW_unique
  exact ⟨s, g', w', hR, h⟩

end Feyn
