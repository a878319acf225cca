import Verif.Proof.Estimator
import Mathlib.Data.Rat.Floor

/-!
# Estimators and histograms: C30 – C34, C51
-/

set_option linter.unusedSectionVars false

namespace Feyn
variable {Q T : Type} [Field Q] [LinearOrder Q] [IsStrictOrderedRing Q] [AddCommGroup T] [Module Q T]

/-! ## C30 -/

/-- **C30**: whatever operations are called (with positive squeeze factors), none fails, and the estimator holds the total weight and
the weighted sum of its samples; the reported mean is their quotient. -/
theorem C30_running_mean (junk : ℕ → T) (ops : List (EstOp Q T)) (hv : ∀ op ∈ ops, op.Valid) :
    ∃ e, EstOp.runs (Est.new junk) ops = .ok e ∧
      e.norm = Samples.weight (ops.foldl EstOp.ideal [(1, 0)]) ∧
      e.accu = Samples.total (ops.foldl EstOp.ideal [(1, 0)]) ∧ 0 < e.norm := by
  obtain ⟨e, h1, h2⟩ := Est.holds_runs (Est.holds_new junk) ops hv
  exact ⟨e, h1, h2.norm, h2.accu, h2.pos⟩

/-- **C30**, the reported mean. -/
theorem C30_reported_mean [FloorSemiring Q] :
    (∀ e : Est Q Q, e.updateReal.mean = e.accu / e.norm) ∧
      (∀ e : Est Q (Q × Q), e.updateComplex.mean = (e.accu.1 / e.norm, e.accu.2 / e.norm)) := by
  constructor
  · intro e
    simp only [Est.updateReal]
    split_ifs <;> simp [div_eq_inv_mul]
  · intro e
    simp only [Est.updateComplex]
    split_ifs <;> ext <;> simp [div_eq_inv_mul]

theorem foldl_measure (ts : List T) (s : Samples Q T) :
    Samples.weight ((ts.map EstOp.measure).foldl EstOp.ideal s) = Samples.weight s + (ts.length : Q) ∧
      Samples.total ((ts.map EstOp.measure).foldl EstOp.ideal s) = Samples.total s + ts.sum := by
  induction ts generalizing s with
  | nil => simp
  | cons t ts ih =>
    obtain ⟨h1, h2⟩ := ih ((1, t) :: s)
    simp only [List.map_cons, List.foldl_cons, EstOp.ideal]
    constructor
    · rw [h1]; simp [Samples.weight]; ring
    · rw [h2]; simp only [Samples.total, List.map_cons, List.sum_cons, one_smul]; abel

/-- **C30**: after any list of measurements the norm is one plus their number and the mean is their sum divided by the norm. -/
theorem C30_samples (junk : ℕ → T) (ts : List T) :
    ∃ e : Est Q T, EstOp.runs (Est.new junk) (ts.map EstOp.measure) = .ok e ∧
      e.norm = 1 + (ts.length : Q) ∧ e.accu = ts.sum := by
  obtain ⟨e, h1, h2, h3, -⟩ := C30_running_mean (Q := Q) junk (ts.map EstOp.measure) (by
    intro op h
    obtain ⟨t, -, rfl⟩ := List.mem_map.1 h
    trivial)
  refine ⟨e, h1, ?_, ?_⟩
  · rw [h2, (foldl_measure ts _).1]; simp [Samples.weight]
  · rw [h3, (foldl_measure ts _).2]; simp [Samples.total]

/-- **C30**: squeezing divides the norm and leaves the mean; other factors are refused. -/
theorem C30_squeeze (e : Est Q T) (f : Q) :
    (0 < f → ∃ e', e.squeeze f = .ok e' ∧ e'.norm = e.norm / f ∧ e'.norm⁻¹ • e'.accu = e.norm⁻¹ • e.accu ∧
      e'.used = e.used ∧ e'.hist = e.hist) ∧ (f ≤ 0 → e.squeeze f = .abort) := by
  constructor
  · intro hf
    refine ⟨_, Est.squeeze_eq e hf, rfl, ?_, rfl, rfl⟩
    simp only [smul_smul, inv_div]
    congr 1
    rcases eq_or_ne e.norm 0 with h | h
    · simp [h]
    · field_simp
  · intro hf
    exact if_neg (not_lt.mpr hf)

theorem same_run {a b : Est Q T} (h : a.Same b) (op : EstOp Q T) :
    (∃ a' b', op.run a = .ok a' ∧ op.run b = .ok b' ∧ a'.Same b') ∨ (op.run a = .abort ∧ op.run b = .abort) := by
  obtain ⟨i1, c1, u1, s1, n1, r1, m1, x1, h1⟩ := a
  obtain ⟨i2, c2, u2, s2, n2, r2, m2, x2, h2⟩ := b
  obtain ⟨e1, e2, e3, e4, e5, e6, e7⟩ := h
  simp only at e1 e2 e3 e4 e5 e6 e7
  subst e1 e2 e3 e4 e5 e6
  cases op with
  | measure t => exact Or.inl ⟨_, _, rfl, rfl, rfl, rfl, rfl, rfl, rfl, rfl, e7⟩
  | clear => exact Or.inl ⟨_, _, rfl, rfl, rfl, rfl, rfl, rfl, rfl, rfl, fun i hi => absurd hi (Nat.not_lt_zero i)⟩
  | squeeze f =>
    by_cases hf : 0 < f
    · exact Or.inl ⟨_, _, if_pos hf, if_pos hf, rfl, rfl, rfl, rfl, rfl, rfl, e7⟩
    · exact Or.inr ⟨if_neg hf, if_neg hf⟩
  | addStatistics =>
    simp only [EstOp.run, Est.addStatistics]
    split_ifs with g1 g2 g3
    · refine Or.inl ⟨_, _, rfl, rfl, rfl, rfl, rfl, rfl, rfl, rfl, fun i hi => ?_⟩
      simp only at hi ⊢
      rw [Est.thin_eq, Est.thin_eq, if_pos hi, if_pos hi]
      exact e7 _ (by omega)
    · refine Or.inl ⟨_, _, rfl, rfl, rfl, rfl, rfl, rfl, rfl, rfl, fun i hi => ?_⟩
      simp only [upd_apply] at hi ⊢
      by_cases hu : i = u1
      · rw [if_pos hu, if_pos hu]
      · rw [if_neg hu, if_neg hu]; exact e7 _ (by omega)
    · exact Or.inl ⟨_, _, rfl, rfl, rfl, rfl, rfl, rfl, rfl, rfl, e7⟩
    · exact Or.inr ⟨rfl, rfl⟩

/-- **C30**, what clearing forgets: whatever happened before and whatever is called afterwards, a cleared estimator has the same sum,
norm, counters and history as a new one. Missing from the full claim: the error bar, see `C30_clear_refuted`. -/
theorem C30_clear_partial (e : Est Q T) (junk : ℕ → T) (ops : List (EstOp Q T)) :
    (∃ a b, EstOp.runs e.clear ops = .ok a ∧ EstOp.runs (Est.new junk) ops = .ok b ∧ a.Same b) ∨
      (EstOp.runs e.clear ops = .abort ∧ EstOp.runs (Est.new junk : Est Q T) ops = .abort) := by
  have h0 : e.clear.Same (Est.new junk) := ⟨rfl, rfl, rfl, rfl, rfl, rfl, fun i hi => absurd hi (Nat.not_lt_zero i)⟩
  revert h0
  generalize e.clear = a
  generalize (Est.new junk : Est Q T) = b
  intro h0
  induction ops generalizing a b with
  | nil => exact Or.inl ⟨a, b, rfl, rfl, h0⟩
  | cons op ops ih =>
    rcases same_run h0 op with ⟨a', b', h1, h2, h3⟩ | ⟨h1, h2⟩
    · simp only [EstOp.runs, h1, h2, Res.bind_ok]
      exact ih a' b' h3
    · exact Or.inr ⟨by simp [EstOp.runs, h1], by simp [EstOp.runs, h2]⟩

/-- **C30** fails for the error bar: after measuring 1, recording, measuring 3, recording, asking for an estimate and clearing, the
next estimate has mean zero but still the error bar of the forgotten data. -/
theorem C30_clear_refuted :
    ∃ e : Est ℚ ℚ, EstOp.runs (Est.new fun _ => 0) [.measure 1, .addStatistics, .measure 3, .addStatistics] = .ok e ∧
      (Est.updateReal (Est.clear e.updateReal)).mean = 0 ∧ (Est.updateReal (Est.clear e.updateReal)).error = 5 / 12 :=
  ⟨_, rfl, by decide +kernel, by decide +kernel⟩

/-- C30 on a case: two measurements, a squeeze by two, one more measurement. The total weight is `(1 + 2) / 2 + 1`. -/
example : ∃ e : Est ℚ ℚ,
    EstOp.runs (Est.new fun _ => 0) [.measure 1, .measure 4, .squeeze 2, .measure 3] = .ok e ∧
      e.norm = 5 / 2 ∧ e.accu = 11 / 2 := ⟨_, rfl, by decide +kernel, by decide +kernel⟩

/-! ## C31 -/

theorem count_run {e : Est Q T} (hu : e.used ≤ HISTORY) {k : ℕ} (hi : e.interval = 2 ^ k % 4294967296) (ops : List (EstOp Q T))
    (hv : ∀ op ∈ ops, op.Valid) :
    ∃ e' k', EstOp.runsCount e k ops = .ok (e', k') ∧ EstOp.runs e ops = .ok e' ∧ e'.used ≤ HISTORY ∧
      e'.interval = 2 ^ k' % 4294967296 := by
  induction ops generalizing e k with
  | nil => exact ⟨e, k, rfl, rfl, hu, hi⟩
  | cons op ops ih =>
    have hv' : ∀ o ∈ ops, o.Valid := fun o ho => hv o (by simp [ho])
    cases op with
    | measure t => exact ih (e := e.measure t) hu hi hv'
    | clear => exact ih (e := e.clear) (k := 0) (by simp [Est.clear]) rfl hv'
    | squeeze f =>
      have hf : 0 < f := hv (.squeeze f) (by simp)
      obtain ⟨e', k', h1, h2, h3, h4⟩ := ih (e := { e with accu := f⁻¹ • e.accu, norm := e.norm / f }) hu hi hv'
      refine ⟨e', k', ?_, ?_, h3, h4⟩
      · simp only [EstOp.runsCount, EstOp.run, Est.squeeze_eq e hf, Res.bind_ok]; exact h1
      · simp only [EstOp.runs, EstOp.run, Est.squeeze_eq e hf, Res.bind_ok]; exact h2
    | addStatistics =>
      rcases Nat.lt_or_ge e.used HISTORY with hlt | hge
      · have hne : e.used ≠ HISTORY := by omega
        have key : ∃ e1, e.addStatistics = .ok e1 ∧ e1.used ≤ HISTORY ∧ e1.interval = e.interval := by
          simp only [Est.addStatistics]
          rw [if_neg hne, if_pos hlt]
          split_ifs
          · exact ⟨_, rfl, by simp only; omega, rfl⟩
          · exact ⟨_, rfl, hu, rfl⟩
        obtain ⟨e1, h1, h2, h3⟩ := key
        obtain ⟨e', k', g1, g2, g3, g4⟩ := ih h2 (by rw [h3]; exact hi) hv'
        refine ⟨e', k', ?_, ?_, g3, g4⟩
        · simp only [EstOp.runsCount, EstOp.run, h1, Res.bind_ok, if_neg hne]; exact g1
        · simp only [EstOp.runs, EstOp.run, h1, Res.bind_ok]; exact g2
      · have heq : e.used = HISTORY := by omega
        have h1 : e.addStatistics = .ok { e with
            hist := Est.thin e.hist (e.used / 2), used := e.used / 2, interval := e.interval * 2 % 4294967296 } := if_pos heq
        obtain ⟨e', k', g1, g2, g3, g4⟩ := ih (e := { e with
            hist := Est.thin e.hist (e.used / 2), used := e.used / 2, interval := e.interval * 2 % 4294967296 }) (k := k + 1)
          (by simp only; omega) (by simp only [hi, pow_succ]; omega) hv'
        refine ⟨e', k', ?_, ?_, g3, g4⟩
        · simp only [EstOp.runsCount, EstOp.run, h1, Res.bind_ok, if_pos heq]; exact g1
        · simp only [EstOp.runs, EstOp.run, h1, Res.bind_ok]; exact g2

/-- **C31**, first part: in every execution the history fits into the buffer, no call fails, and the sampling interval is two to the
number of thinnings since the last clearing, as long as there were fewer than 32 of them. Missing from the full claim: after 32
thinnings the `uint` interval has wrapped around to zero, see `C31_interval_refuted`. -/
theorem C31_interval_partial (junk : ℕ → T) (ops : List (EstOp Q T)) (hv : ∀ op ∈ ops, op.Valid) :
    ∃ e k, EstOp.runsCount (Est.new junk) 0 ops = .ok (e, k) ∧ EstOp.runs (Est.new junk) ops = .ok e ∧
      e.used ≤ HISTORY ∧ (k < 32 → e.interval = 2 ^ k) ∧ (32 ≤ k → e.interval = 0) := by
  obtain ⟨e, k, h1, h2, h3, h4⟩ := count_run (e := (Est.new junk : Est Q T)) (k := 0) (by simp [Est.new, Est.clear]) rfl ops hv
  refine ⟨e, k, h1, h2, h3, fun hk => ?_, fun hk => ?_⟩
  · rw [h4]
    exact Nat.mod_eq_of_lt (lt_of_lt_of_eq (Nat.pow_lt_pow_right (by omega) hk) (by norm_num))
  · rw [h4]
    obtain ⟨j, rfl⟩ := Nat.exists_eq_add_of_le hk
    rw [pow_add]
    exact Nat.mul_mod_right _ _

/-- **C31**, second part: one call either thins a full history (the new entry `i` is the old entry `2 i`, nothing is recorded), or
records the running mean in the next free cell, or only counts. -/
theorem C31_one_call (e : Est Q T) (hu : e.used ≤ HISTORY) :
    ∃ e', e.addStatistics = .ok e' ∧ e'.accu = e.accu ∧ e'.norm = e.norm ∧
      (e.used = HISTORY → e'.used = HISTORY / 2 ∧ (∀ i, i < e'.used → e'.hist i = e.hist (2 * i)) ∧ e'.counter = e.counter) ∧
      (e.used < HISTORY → e'.interval = e.interval ∧ (∀ i, i < e.used → e'.hist i = e.hist i) ∧
        (e.interval ≤ (e.counter + 1) % 4294967296 → e'.used = e.used + 1 ∧ e'.hist e.used = e.norm⁻¹ • e.accu ∧ e'.counter = 0) ∧
        ((e.counter + 1) % 4294967296 < e.interval → e'.used = e.used ∧ e'.counter = (e.counter + 1) % 4294967296)) := by
  simp only [Est.addStatistics]
  split_ifs with g1 g2 g3
  · refine ⟨_, rfl, rfl, rfl, fun _ => ⟨by simp [g1], fun i hi => ?_, rfl⟩, fun h => by omega⟩
    simp only at hi ⊢
    rw [Est.thin_eq, if_pos hi]
  · refine ⟨_, rfl, rfl, rfl, fun h => by omega, fun _ => ⟨rfl, fun i hi => ?_, fun _ => ⟨rfl, ?_, rfl⟩, fun h => by omega⟩⟩
    · simp only [upd_apply]; rw [if_neg (by omega)]
    · simp only [upd_apply]; rw [if_pos trivial]
  · exact ⟨_, rfl, rfl, rfl, fun h => by omega, fun _ => ⟨rfl, fun i hi => rfl, fun h => by omega,
      fun h => ⟨rfl, rfl⟩⟩⟩
  · omega

/-- **C31** fails for very long executions: some number of `AddStatistics` calls makes the sampling interval zero, which is not a power
of two. -/
theorem C31_interval_refuted (junk : ℕ → T) :
    ∃ n e, Est.addMany (Est.new junk : Est Q T) n = .ok e ∧ e.interval = 0 ∧ ∀ k, e.interval ≠ 2 ^ k := by
  obtain ⟨n, e, h1, -, -, h4⟩ := Est.pow_reached (Q := Q) junk 32 le_rfl
  have h0 : e.interval = 0 := h4.trans (by norm_num)
  exact ⟨n, e, h1, h0, fun k => by rw [h0]; positivity⟩

/-- C31 on a case: the interval doubles when the ten thousand cells are full. -/
example : ∃ e, Est.addStatistics
    ({ (Est.new fun _ => 0 : Est ℚ ℚ) with used := 10000, hist := fun i => (i : ℚ) }) = .ok e ∧
      e.used = 5000 ∧ e.interval = 2 ∧ e.hist 1234 = 2468 := by
  refine ⟨_, if_pos rfl, rfl, rfl, ?_⟩
  simp only
  rw [Est.thin_eq, if_pos (by decide)]
  norm_num

/-! ## C32 -/

section C32
variable [FloorSemiring Q]

/-- **C32**, first part, for histories within the sentinel values `±10^30` of the scan: the error is half the difference of the
largest and the smallest retained entry. Missing from the full claim: larger finite values, see `C32_refuted`. -/
theorem C32_error_bar_partial (e : Est Q Q) (hu : e.used ≠ 0)
    (hb : ∀ i, Retained e.used i → |e.hist i| ≤ (10 : Q) ^ 30) :
    ∃ i j, Retained e.used i ∧ Retained e.used j ∧ (∀ k, Retained e.used k → e.hist j ≤ e.hist k ∧ e.hist k ≤ e.hist i) ∧
      e.updateReal.error = (e.hist i - e.hist j) / 2 := by
  have hM : (Est.maxReal : Q) = 10 ^ 30 := by simp only [Est.maxReal]; push_cast; norm_num
  obtain ⟨j, hj, hj2⟩ := Est.scan_min_mem e.hist e.used hu (fun i hi => by rw [hM]; exact (abs_le.1 (hb i hi)).2)
  obtain ⟨i, hi, hi2⟩ := Est.scan_max_mem e.hist e.used hu (fun i hi => by rw [hM]; exact (abs_le.1 (hb i hi)).1)
  have hall : ∀ k, Retained e.used k → e.hist j ≤ e.hist k ∧ e.hist k ≤ e.hist i := by
    intro k hk
    have := Est.scan_bounds e.hist e.used k hk
    rw [hj2, hi2] at this
    exact this
  refine ⟨i, j, hi, hj, hall, ?_⟩
  simp only [Est.updateReal]
  rw [if_neg hu]
  simp only [hi2, hj2]
  rw [abs_of_nonneg (sub_nonneg.2 (hall j hj).2)]

/-- **C32**, second part, for every history: the error is not negative and any two retained entries differ by at most twice the
error. -/
theorem C32_spread (e : Est Q Q) (hu : e.used ≠ 0) :
    0 ≤ e.updateReal.error ∧
      ∀ i j, Retained e.used i → Retained e.used j → |e.hist i - e.hist j| ≤ 2 * e.updateReal.error := by
  simp only [Est.updateReal]
  rw [if_neg hu]
  simp only
  refine ⟨by positivity, fun i j hi hj => ?_⟩
  obtain ⟨h1, h2⟩ := Est.scan_bounds e.hist e.used i hi
  obtain ⟨h3, h4⟩ := Est.scan_bounds e.hist e.used j hj
  rw [mul_div_cancel₀ _ (two_ne_zero)]
  refine le_trans ?_ (le_abs_self _)
  rw [abs_le]
  constructor <;> linarith

/-- **C32** for complex estimators: each part has the error bar of a real estimator that holds this part. -/
theorem C32_complex (e : Est Q (Q × Q)) (a b : Est Q Q) (ha : a.used = e.used) (hb : b.used = e.used)
    (hah : ∀ i, a.hist i = (e.hist i).1) (hbh : ∀ i, b.hist i = (e.hist i).2) (hu : e.used ≠ 0) :
    e.updateComplex.error = (a.updateReal.error, b.updateReal.error) := by
  have e1 : a.hist = fun i => (e.hist i).1 := funext hah
  have e2 : b.hist = fun i => (e.hist i).2 := funext hbh
  simp only [Est.updateComplex, Est.updateReal]
  simp only [e1, e2, ha, hb, if_neg hu]

/-- With an empty history the error bar is left as it was. -/
theorem C32_empty (e : Est Q Q) (hu : e.used = 0) : e.updateReal.error = e.error := by
  simp only [Est.updateReal]
  rw [if_pos hu]

end C32

/-- **C32** fails for values beyond `10^30`: a single entry `2 * 10^30` gets the error bar `5 * 10^29` instead of zero. -/
theorem C32_refuted :
    ∃ e : Est ℚ ℚ, e.used = 1 ∧ e.hist 0 = 2 * 10 ^ 30 ∧ e.updateReal.error = 5 * 10 ^ 29 :=
  ⟨{ (Est.new fun _ => 2 * 10 ^ 30 : Est ℚ ℚ) with used := 1 }, rfl, rfl, by decide +kernel⟩

/-- C32 on a case: of the entries 9, 1, 4, 2, 3, 7 the first two are dropped. -/
example : (Est.updateReal { (Est.new fun i => [9, 1, 4, 2, 3, 7].getD i 0 : Est ℚ ℚ) with used := 6 }).error = 5 / 2 := by
  decide +kernel

/-! ## C33 -/

section C33
variable {F : Type} [AddCommGroup F] [Module Q F]

/-- **C33**: a new histogram is usable for its orders and table size, and it is empty. -/
theorem C33_allocate (beta : Q) (bins vol : ℕ) (size order : ℤ) (norm : Q) (junk : ℤ → F)
    (hs : 0 < size) (ho : 0 < order) (hf : order * size < 4294967296) :
    ∃ h, Histo.allocate beta bins vol size order norm junk = .ok h ∧ h.Wf order size ∧ h.beta = beta ∧
      h.norm = norm * (bins : Q) / (beta ^ 2 * (vol : Q)) ∧ h.normAccu = 0 ∧
      ∀ i, 0 ≤ i → i < order * size → h.data i = 0 :=
  Histo.allocate_wf beta bins vol size order norm junk hs ho hf

/-- **C33**, one measurement: it stays inside the array and changes exactly one cell. -/
theorem C33_measure {h : Histo Q F} {orders size : ℤ} (hw : h.Wf orders size) {n i : ℤ} (hn : 1 ≤ n ∧ n ≤ orders)
    (hi : 0 ≤ i ∧ i < size) (w : F) :
    ∃ h', h.measure i n w = .ok h' ∧ h'.Wf orders size ∧ h'.norm = h.norm ∧ h'.normAccu = h.normAccu ∧
      0 ≤ (n - 1) * size + i ∧ (n - 1) * size + i < h.cells ∧
      h'.data ((n - 1) * size + i) = h.data ((n - 1) * size + i) + w ∧
      ∀ j, j ≠ (n - 1) * size + i → h'.data j = h.data j := by
  obtain ⟨e1, e2, e3⟩ := Histo.index_eq hw hn.1 hn.2 hi.1 hi.2
  have key : h.measure i n w = .ok { h with
      data := fun j => if j = (n - 1) * size + i then h.data j + w else h.data j } := by
    simp only [Histo.measure, e1]
    exact if_pos ⟨e2, by rw [hw.cells]; exact e3⟩
  refine ⟨_, key, ⟨hw.orders_pos, hw.size_pos, hw.fits, hw.cells, hw.perOrder⟩, rfl, rfl, e2, by rw [hw.cells]; exact e3, ?_, ?_⟩
  · simp only [if_pos]
  · intro j hj
    simp only [if_neg hj]

/-- **C33**: different orders or indices use different cells. -/
theorem C33_disjoint {size n i n' i' : ℤ} (hi : 0 ≤ i ∧ i < size) (hi' : 0 ≤ i' ∧ i' < size)
    (hne : (n, i) ≠ (n', i')) : (n - 1) * size + i ≠ (n' - 1) * size + i' := by
  intro h
  obtain ⟨h1, h2⟩ := Histo.index_inj hi.1 hi.2 hi'.1 hi'.2 h
  exact hne (by rw [h1, h2])

/-- **C33**, any sequence of measurements: each cell has grown by exactly what was measured at its order and index. -/
theorem C33_measurements {h : Histo Q F} {orders size : ℤ} (hw : h.Wf orders size) (l : List (ℤ × ℤ × F))
    (hl : ∀ x ∈ l, (1 ≤ x.1 ∧ x.1 ≤ orders) ∧ 0 ≤ x.2.1 ∧ x.2.1 < size) :
    ∃ h', h.measures l = .ok h' ∧ h'.Wf orders size ∧ h'.norm = h.norm ∧ h'.normAccu = h.normAccu ∧
      ∀ n i, 1 ≤ n → n ≤ orders → 0 ≤ i → i < size →
        h'.data ((n - 1) * size + i) = h.data ((n - 1) * size + i) + measuredAt n i l := by
  induction l generalizing h with
  | nil => exact ⟨h, rfl, hw, rfl, rfl, fun n i _ _ _ _ => by simp [measuredAt]⟩
  | cons x l ih =>
    obtain ⟨n0, i0, w0⟩ := x
    obtain ⟨hn0, hi0⟩ := hl (n0, i0, w0) (by simp)
    obtain ⟨h1, m1, m2, m3, m4, -, -, m5, m6⟩ := C33_measure hw hn0 hi0 w0
    obtain ⟨h2, k1, k2, k3, k4, k5⟩ := ih m2 (fun x hx => hl x (by simp [hx]))
    refine ⟨h2, by simp only [Histo.measures, m1, Res.bind_ok, k1], k2, k3.trans m3, k4.trans m4, fun n i a b c d => ?_⟩
    rw [k5 n i a b c d]
    by_cases he : n0 = n ∧ i0 = i
    · obtain ⟨rfl, rfl⟩ := he
      rw [m5]
      simp [measuredAt, add_assoc]
    · rw [m6 _ (C33_disjoint ⟨c, d⟩ hi0 (fun hh => he (by simp only [Prod.mk.injEq] at hh; exact ⟨hh.1.symm, hh.2.symm⟩)))]
      simp [measuredAt, he]

/-- **C33**: squeezing leaves the measured function; other factors are refused. -/
theorem C33_squeeze {h : Histo Q F} {orders size : ℤ} (hw : h.Wf orders size) (f : Q) :
    (0 < f → ∃ h', h.squeeze f = .ok h' ∧ h'.Wf orders size ∧ h'.normAccu = h.normAccu / f ∧
      (∀ i, 0 ≤ i → i < h.cells → h'.data i = f⁻¹ • h.data i) ∧
      ∀ i, 0 ≤ i → i < h.cells → h'.value i = h.value i) ∧ (f ≤ 0 → h.squeeze f = .abort) := by
  constructor
  · intro hf
    have key : h.squeeze f = .ok { h with
        normAccu := h.normAccu / f,
        data := fun i => if 0 ≤ i ∧ i < h.cells then (1 / f) • h.data i else h.data i } := if_pos hf
    refine ⟨_, key, ⟨hw.orders_pos, hw.size_pos, hw.fits, hw.cells, hw.perOrder⟩, rfl, ?_, ?_⟩
    · intro i h0 h1
      simp only [if_pos (And.intro h0 h1), one_div]
    · intro i h0 h1
      simp only [Histo.value, if_pos (And.intro h0 h1), smul_smul]
      congr 1
      rcases eq_or_ne h.normAccu 0 with hz | hz
      · simp [hz]
      · field_simp
  · intro hf
    exact if_neg (not_lt.mpr hf)

/-- Order zero is outside of C33: unless `(2^32 - size + index)` happens to be a cell, such a measurement writes out of bounds. -/
theorem C33_order_zero {h : Histo Q F} {orders size : ℤ} (hw : h.Wf orders size) (hs : orders * size ≤ 4294967296 - size)
    {i : ℤ} (hi : 0 ≤ i ∧ i < size) (w : F) : h.measure i 0 w = .ub := by
  have h1 := hw.size_pos
  have h2 := hw.orders_pos
  have h3 : size ≤ orders * size := by nlinarith
  have e : Histo.wrap ((0 - 1) * h.perOrder + i) = 4294967296 - size + i := by
    rw [hw.perOrder, Histo.wrap]
    have : (0 - 1) * size + i = (4294967296 - size + i) + 4294967296 * (-1) := by ring
    rw [this, Int.add_mul_emod_self_left]
    exact Int.emod_eq_of_lt (by omega) (by omega)
  simp only [Histo.measure, e]
  exact if_neg (by rw [hw.cells]; omega)

end C33

/-- C33 on a case: three orders of four cells; two measurements at order 2. -/
example : ∃ h h' : Histo ℚ ℚ, Histo.allocate 1 4 1 4 3 1 (fun _ => 7) = .ok h ∧
    h.measures [(2, 1, 5), (1, 3, 2), (2, 1, 6)] = .ok h' ∧ h'.data 5 = 11 ∧ h'.data 3 = 2 ∧ h'.data 4 = 0 :=
  ⟨_, _, rfl, rfl, by decide +kernel, by decide +kernel, by decide +kernel⟩

/-! ## C34 -/

section C34
variable {F : Type} [AddCommGroup F] [Module Q F]

/-- What annealing really does: the measured function is multiplied by `(β / β')²`, because only the accumulated normalisation
is rescaled. Full claim C34: `(h.anneal beta').value i = h.value i`; it fails, see `C34_refuted`. -/
theorem C34_anneal_partial (h : Histo Q F) (beta' : Q) (i : ℤ) :
    (h.anneal beta').value i = ((h.beta / beta') ^ 2) • h.value i := by
  simp only [Histo.value, Histo.anneal, smul_smul]
  congr 1
  rw [div_pow, div_pow]
  rcases eq_or_ne h.normAccu 0 with hz | hz
  · simp [hz]
  rcases eq_or_ne h.beta 0 with hb | hb
  · simp [hb]
  rcases eq_or_ne beta' 0 with hb' | hb'
  · simp [hb']
  field_simp

/-- Annealing keeps the measured function only if the temperature stays the same or there is nothing measured. -/
theorem C34_only_if_partial (h : Histo Q F) (beta' : Q) (hb : 0 < h.beta) (hb' : 0 < beta') (i : ℤ) :
    (h.anneal beta').value i = h.value i ↔ beta' = h.beta ∨ h.value i = 0 := by
  rw [C34_anneal_partial]
  constructor
  · intro he
    by_cases hv : h.value i = 0
    · exact Or.inr hv
    left
    have h1 : ((h.beta / beta') ^ 2 - 1) • h.value i = 0 := by rw [sub_smul, one_smul, he, sub_self]
    by_cases h2 : (h.beta / beta') ^ 2 - 1 = 0
    · have h3 : (h.beta / beta') ^ 2 = 1 := by linarith
      have h4 : h.beta / beta' = 1 := by
        have := div_pos hb hb'
        rcases mul_self_eq_one_iff.1 ((sq (h.beta / beta')).symm.trans h3) with h | h
        · exact h
        · linarith
      rw [div_eq_one_iff_eq hb'.ne'] at h4
      exact h4.symm
    · exact absurd (by rw [← one_smul Q (h.value i), ← inv_mul_cancel₀ h2, mul_smul, h1, smul_zero]) hv
  · rintro (rfl | hv)
    · rw [div_self hb.ne', one_pow, one_smul]
    · rw [hv, smul_zero]

/-- Annealing again compounds the factors, because the histogram keeps its first temperature: any sequence of annealings multiplies
the measured function by the product of the factors `(β₀ / β)²`. -/
theorem C34_sequence_partial (h : Histo Q F) (betas : List Q) (i : ℤ) :
    (betas.foldl Histo.anneal h).value i = (betas.map fun b => (h.beta / b) ^ 2).prod • h.value i := by
  induction betas generalizing h with
  | nil => simp
  | cons b l ih =>
    simp only [List.foldl_cons, List.map_cons, List.prod_cons]
    rw [ih, C34_anneal_partial, smul_smul, mul_comm]
    rfl

end C34

/-- **C34** fails: annealing from `β = 1` to `β = 2` divides the measured function by four; going on to `β = 2` once more divides it
again. -/
theorem C34_refuted :
    ∃ h : Histo ℚ ℚ, h.beta = 1 ∧ h.value 0 = 1 ∧ (h.anneal 2).value 0 = 1 / 4 ∧ ((h.anneal 2).anneal 2).value 0 = 1 / 16 :=
  ⟨⟨1, 1, 1, 1, fun _ => 1, 1⟩, rfl, by decide +kernel, by decide +kernel, by decide +kernel⟩

/-! ## C51 -/

/-- **C51**: an estimator restored from a file has the sum, the norm and the history that were saved, whatever it held before; its
sampling interval starts again at one. -/
theorem C51_estimator_restart (e e0 : Est Q T) (hu : e.used ≤ HISTORY) :
    ∃ e', e0.load e.save.1 e.save.2.1 e.save.2.2 = .ok e' ∧ e'.accu = e.accu ∧ e'.norm = e.norm ∧ e'.used = e.used ∧
      (∀ i, i < e.used → e'.hist i = e.hist i) ∧ e'.save = e.save ∧ e'.interval = 1 ∧ e'.counter = 0 := by
  have hl : ((List.range e.used).map e.hist).length = e.used := by simp
  have hh : ∀ i, i < e.used → (((List.range e.used).map e.hist)[i]?).getD (e0.clear.hist i) = e.hist i := by
    intro i hi
    simp [hi]
  have key : e0.load e.save.1 e.save.2.1 e.save.2.2 = .ok { e0.clear with
      hist := fun i => (((List.range e.used).map e.hist)[i]?).getD (e0.clear.hist i)
      used := ((List.range e.used).map e.hist).length
      accu := e.accu
      norm := e.norm } := by
    simp only [Est.load, Est.save]
    exact if_neg (by rw [hl]; omega)
  refine ⟨_, key, rfl, rfl, hl, hh, ?_, rfl, rfl⟩
  simp only [Est.save, hl]
  congr 1
  exact List.map_congr_left (fun i hi => hh i (List.mem_range.1 hi))

/-- **C51**: the restored error bar and mean are those of the saved estimator. -/
theorem C51_estimator_error [FloorSemiring Q] (e e0 e' : Est Q Q) (hu : e.used ≤ HISTORY) (h0 : e.used ≠ 0)
    (h : e0.load e.save.1 e.save.2.1 e.save.2.2 = .ok e') :
    e'.updateReal.mean = e.updateReal.mean ∧ e'.updateReal.error = e.updateReal.error := by
  obtain ⟨e1, h1, h2, h3, h4, h5, -, -, -⟩ := C51_estimator_restart e e0 hu
  rw [h1] at h
  cases h
  have hs : Est.scan e'.hist e'.used = Est.scan e.hist e.used := by
    rw [h4]
    unfold Est.scan
    refine List.foldl_ext _ _ _ (fun s i hi => ?_)
    have := (Est.mem_scanned (Q := Q) e.used i).1 hi
    simp only [Est.Scan.step, h5 i this.2]
  simp only [Est.updateReal]
  rw [if_neg h0, if_neg (by omega)]
  simp only [hs, h2, h3]
  exact ⟨trivial, trivial⟩

/-- A stored history longer than the buffer is copied over its end. -/
theorem C51_too_long (e : Est Q T) (l : List T) (a : T) (n : Q) (hl : HISTORY < l.length) : e.load l a n = .ub := if_pos hl

/-- **C51** for histograms: a histogram restored from a file with at most as many orders has the saved cells, and zero in the orders
that the file does not have. -/
theorem C51_histogram_restart {F : Type} [AddCommGroup F] [Module Q F] (h h0 : Histo Q F) (orders orders0 size : ℤ)
    (hw : h.Wf orders size) (hw0 : h0.Wf orders0 size) :
    (orders ≤ orders0 → ∃ h', h0.load h.norm h.normAccu orders h.data = .ok h' ∧ h'.Wf orders0 size ∧
      (∀ i, 0 ≤ i → i < orders * size → h'.data i = h.data i ∧ h'.value i = h.value i) ∧
      ∀ i, orders * size ≤ i → i < orders0 * size → h'.data i = 0) ∧
    (orders0 < orders → h0.load h.norm h.normAccu orders h.data = .ub) := by
  have hs := hw.size_pos
  constructor
  · intro ho
    have hle : orders * size ≤ orders0 * size := mul_le_mul_of_nonneg_right ho hs.le
    have key : h0.load h.norm h.normAccu orders h.data = .ok { h0 with
        norm := h.norm, normAccu := h.normAccu,
        data := fun i => if 0 ≤ i ∧ i < orders * h0.perOrder then h.data i
          else if 0 ≤ i ∧ i < h0.cells then 0 else h0.data i } :=
      if_neg (by rw [hw0.perOrder, hw0.cells]; omega)
    refine ⟨_, key, ⟨hw0.orders_pos, hw0.size_pos, hw0.fits, hw0.cells, hw0.perOrder⟩, ?_, ?_⟩
    · intro i a b
      simp only [Histo.value, hw0.perOrder]
      rw [if_pos ⟨a, b⟩]
      exact ⟨rfl, rfl⟩
    · intro i a b
      have : 0 ≤ orders * size := mul_nonneg hw.orders_pos.le hs.le
      simp only [hw0.perOrder]
      rw [if_neg (by omega), if_pos ⟨by omega, by rw [hw0.cells]; exact b⟩]
  · intro ho
    refine if_pos ?_
    rw [hw0.perOrder, hw0.cells]
    exact mul_lt_mul_of_pos_right ho hs

/-- C51 on a case. -/
example : ∃ e' : Est ℚ ℚ,
    (Est.new fun _ => 0 : Est ℚ ℚ).load
      (Est.save { (Est.new fun i => (i : ℚ) : Est ℚ ℚ) with used := 3, interval := 4 }).1 5 2 = .ok e' ∧
      e'.used = 3 ∧ e'.hist 2 = 2 ∧ e'.interval = 1 := ⟨_, rfl, rfl, by decide +kernel, rfl⟩

end Feyn
