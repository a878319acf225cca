import Verif.Spec.Estimator
import Mathlib.Algebra.Order.Field.Basic
import Mathlib.Algebra.Order.Floor.Semifield
import Mathlib.Algebra.BigOperators.GroupWithZero.Action
import Mathlib.Algebra.Module.Basic
import Mathlib.Tactic.Linarith
import Mathlib.Tactic.Ring
import Mathlib.Tactic.FieldSimp
import Mathlib.Tactic.Positivity

/-!
# Lemmas on estimators
-/

set_option linter.unusedSectionVars false

namespace Feyn
variable {Q T : Type} [Field Q] [LinearOrder Q] [IsStrictOrderedRing Q] [AddCommGroup T] [Module Q T]

namespace Est

/-! ## Sums -/

theorem weight_squeeze (s : Samples Q T) (f : Q) :
    Samples.weight (s.map fun x => (x.1 / f, x.2)) = Samples.weight s / f := by
  induction s with
  | nil => simp [Samples.weight]
  | cons a s ih =>
    simp only [Samples.weight, List.map_cons, List.sum_cons] at ih ⊢
    rw [ih]; ring

theorem total_squeeze (s : Samples Q T) (f : Q) :
    Samples.total (s.map fun x => (x.1 / f, x.2)) = f⁻¹ • Samples.total s := by
  induction s with
  | nil => simp [Samples.total]
  | cons a s ih =>
    simp only [Samples.total, List.map_cons, List.sum_cons] at ih ⊢
    rw [ih, smul_add, smul_smul]
    congr 2
    ring

/-- An estimator that holds the given weighted samples. -/
structure Holds (e : Est Q T) (s : Samples Q T) : Prop where
  norm : e.norm = Samples.weight s
  accu : e.accu = Samples.total s
  pos : 0 < e.norm
  used : e.used ≤ HISTORY

theorem holds_clear (e : Est Q T) : Holds e.clear [(1, 0)] :=
  ⟨by simp [clear, Samples.weight], by simp [clear, Samples.total], by simp [clear], by simp [clear]⟩

theorem holds_new (junk : ℕ → T) : Holds (new junk : Est Q T) [(1, 0)] := holds_clear _

theorem squeeze_eq (e : Est Q T) {f : Q} (hf : 0 < f) :
    e.squeeze f = .ok { e with accu := f⁻¹ • e.accu, norm := e.norm / f } := if_pos hf

theorem holds_run {e : Est Q T} {s : Samples Q T} (h : Holds e s) {op : EstOp Q T} (hv : op.Valid) :
    ∃ e', op.run e = .ok e' ∧ Holds e' (op.ideal s) := by
  cases op with
  | measure t =>
    refine ⟨_, rfl, ?_, ?_, ?_, h.used⟩
    · simp [measure, EstOp.ideal, Samples.weight, h.norm]; ring
    · simp [measure, EstOp.ideal, Samples.total, h.accu, add_comm]
    · have := h.pos; simp only [measure]; linarith
  | squeeze f =>
    have hf : 0 < f := hv
    refine ⟨_, squeeze_eq e hf, ?_, ?_, ?_, h.used⟩
    · simp only [EstOp.ideal, weight_squeeze, h.norm]
    · simp only [EstOp.ideal, total_squeeze, h.accu]
    · exact div_pos h.pos hf
  | clear => exact ⟨_, rfl, holds_clear e⟩
  | addStatistics =>
    simp only [EstOp.run, EstOp.ideal, addStatistics]
    have hu := h.used
    split_ifs with h1 h2 h3
    · exact ⟨_, rfl, h.norm, h.accu, h.pos, by simp only; omega⟩
    · exact ⟨_, rfl, h.norm, h.accu, h.pos, by simp only; omega⟩
    · exact ⟨_, rfl, h.norm, h.accu, h.pos, by simp only; omega⟩
    · omega

theorem holds_runs {e : Est Q T} {s : Samples Q T} (h : Holds e s) (ops : List (EstOp Q T))
    (hv : ∀ op ∈ ops, op.Valid) :
    ∃ e', EstOp.runs e ops = .ok e' ∧ Holds e' (ops.foldl EstOp.ideal s) := by
  induction ops generalizing e s with
  | nil => exact ⟨e, rfl, h⟩
  | cons op ops ih =>
    obtain ⟨e1, h1, h2⟩ := holds_run h (hv op (by simp))
    obtain ⟨e2, h3, h4⟩ := ih h2 (fun o ho => hv o (by simp [ho]))
    exact ⟨e2, by simp [EstOp.runs, h1, h3], h4⟩

theorem runs_append (e : Est Q T) (a b : List (EstOp Q T)) :
    EstOp.runs e (a ++ b) = (EstOp.runs e a).bind fun e => EstOp.runs e b := by
  induction a generalizing e with
  | nil => rfl
  | cons x a ih =>
    simp only [List.cons_append, EstOp.runs]
    cases EstOp.run e x <;> simp [ih]

/-! ## Thinning -/

theorem thin_eq (h : ℕ → T) (n i : ℕ) : thin h n i = if i < n then h (2 * i) else h i := by
  unfold thin
  induction n generalizing i with
  | zero => simp
  | succ n ih =>
    rw [List.range_succ, List.foldl_append]
    simp only [List.foldl_cons, List.foldl_nil, upd_apply]
    by_cases hi : i = n
    · subst hi
      rw [if_pos rfl, ih, if_neg (by omega), if_pos (by omega)]
    · rw [if_neg hi, ih]
      by_cases h2 : i < n
      · rw [if_pos h2, if_pos (by omega)]
      · rw [if_neg h2, if_neg (by omega)]

/-! ## Many calls -/

theorem addMany_add (e : Est Q T) (m n : ℕ) :
    addMany e (m + n) = (addMany e m).bind fun e => addMany e n := by
  induction n with
  | zero => simp only [Nat.add_zero, addMany]; cases addMany e m <;> rfl
  | succ n ih =>
    rw [Nat.add_succ]
    simp only [addMany, ih]
    cases addMany e m <;> rfl

theorem addMany_trans {a b c : Est Q T} {m n : ℕ} (h1 : addMany a m = .ok b) (h2 : addMany b n = .ok c) :
    addMany a (m + n) = .ok c := by
  rw [addMany_add, h1]; exact h2

theorem addMany_one {a b : Est Q T} (h : addStatistics a = .ok b) : addMany a 1 = .ok b := h

theorem count_up (e : Est Q T) (hu : e.used < HISTORY) (h0 : e.counter = 0) (hi : e.interval < 4294967296) (j : ℕ)
    (hj : j < e.interval) : addMany e j = .ok { e with counter := j } := by
  induction j with
  | zero => simp only [addMany]; rw [← h0]
  | succ j ih =>
    simp only [addMany, ih (by omega), Res.bind_ok, addStatistics]
    rw [if_neg (by omega), if_pos hu]
    have : (j + 1) % 4294967296 = j + 1 := Nat.mod_eq_of_lt (by omega)
    rw [this, if_neg (by omega)]

theorem record (e : Est Q T) (hu : e.used < HISTORY) (h0 : e.counter = 0) (hi : e.interval < 4294967296)
    (hp : 0 < e.interval) : ∃ e', addMany e e.interval = .ok e' ∧ e'.used = e.used + 1 ∧ e'.counter = 0 ∧
      e'.interval = e.interval := by
  obtain ⟨k, hk⟩ : ∃ k, e.interval = k + 1 := ⟨e.interval - 1, by omega⟩
  have h := count_up e hu h0 hi k (by omega)
  have key : addMany e e.interval =
      .ok { e with hist := upd e.hist e.used (e.norm⁻¹ • e.accu), used := e.used + 1, counter := 0 } := by
    rw [show addMany e e.interval = addMany e (k + 1) by rw [hk]]
    simp only [addMany, h, Res.bind_ok, addStatistics]
    rw [if_neg (by omega), if_pos hu]
    have : (k + 1) % 4294967296 = k + 1 := Nat.mod_eq_of_lt (by omega)
    rw [this, if_pos (by omega)]
  exact ⟨_, key, rfl, rfl, rfl⟩

theorem fill (m : ℕ) (e : Est Q T) (hu : e.used + m ≤ HISTORY) (h0 : e.counter = 0) (hi : e.interval < 4294967296)
    (hp : 0 < e.interval) : ∃ n e', addMany e n = .ok e' ∧ e'.used = e.used + m ∧ e'.counter = 0 ∧
      e'.interval = e.interval := by
  induction m generalizing e with
  | zero => exact ⟨0, e, rfl, rfl, h0, rfl⟩
  | succ m ih =>
    obtain ⟨e1, h1, h2, h3, h4⟩ := record e (by omega) h0 hi hp
    obtain ⟨n, e2, g1, g2, g3, g4⟩ := ih e1 (by omega) h3 (by omega) (by omega)
    exact ⟨_, e2, addMany_trans h1 g1, by omega, g3, by omega⟩

theorem thinned (e : Est Q T) (hu : e.used ≤ HISTORY) (h0 : e.counter = 0) (hi : e.interval < 4294967296)
    (hp : 0 < e.interval) : ∃ n e', addMany e n = .ok e' ∧ e'.used ≤ HISTORY ∧ e'.counter = 0 ∧
      e'.interval = e.interval * 2 % 4294967296 := by
  obtain ⟨n, e1, h1, h2, h3, h4⟩ := fill (HISTORY - e.used) e (by omega) h0 hi hp
  have h5 : e1.used = HISTORY := by omega
  have key : addStatistics e1 = .ok { e1 with
      hist := thin e1.hist (e1.used / 2), used := e1.used / 2, interval := e1.interval * 2 % 4294967296 } := if_pos h5
  refine ⟨n + 1, _, addMany_trans h1 (addMany_one key), ?_, h3, ?_⟩
  · simp only [h5]; omega
  · simp only [h4]

theorem pow_reached (junk : ℕ → T) (k : ℕ) (hk : k ≤ 32) :
    ∃ n e', addMany (new junk : Est Q T) n = .ok e' ∧ e'.used ≤ HISTORY ∧ e'.counter = 0 ∧
      e'.interval = 2 ^ k % 4294967296 := by
  induction k with
  | zero => exact ⟨0, _, rfl, by simp [new, clear], rfl, rfl⟩
  | succ k ih =>
    obtain ⟨n, e1, h1, h2, h3, h4⟩ := ih (by omega)
    have hlt : (2 : ℕ) ^ k < 4294967296 := by
      calc (2 : ℕ) ^ k < 2 ^ 32 := Nat.pow_lt_pow_right (by omega) (by omega)
        _ = 4294967296 := by norm_num
    have hpos : 0 < (2 : ℕ) ^ k := by positivity
    rw [Nat.mod_eq_of_lt hlt] at h4
    obtain ⟨m, e2, g1, g2, g3, g4⟩ := thinned e1 h2 h3 (by omega) (by omega)
    exact ⟨_, e2, addMany_trans h1 g1, g2, g3, by rw [g4, h4, pow_succ]⟩

/-! ## Smallest and largest entry -/

theorem step_min (h : ℕ → Q) (s : Scan Q) (i : ℕ) : (Scan.step h s i).min = min s.min (h i) := by
  unfold Scan.step
  rcases lt_or_ge (h i) s.min with h1 | h1
  · rw [if_pos h1, min_eq_right h1.le]; dsimp only; split_ifs <;> rfl
  · rw [if_neg (not_lt.mpr h1), min_eq_left h1]; dsimp only; split_ifs <;> rfl

theorem step_max (h : ℕ → Q) (s : Scan Q) (i : ℕ) : (Scan.step h s i).max = max s.max (h i) := by
  unfold Scan.step
  have : ∀ a : Q, (if s.min > h i then { s with min := h i, minIndex := (i : ℤ) } else s).max = s.max := by
    intro _; split_ifs <;> rfl
  simp only
  rw [this 0]
  rcases lt_or_ge s.max (h i) with h1 | h1
  · rw [if_pos h1, max_eq_right h1.le]
  · rw [if_neg (not_lt.mpr h1), max_eq_left h1, this 0]

theorem fold_min (h : ℕ → Q) (l : List ℕ) (s : Scan Q) :
    (l.foldl (Scan.step h) s).min ≤ s.min ∧ (∀ i ∈ l, (l.foldl (Scan.step h) s).min ≤ h i) ∧
      ((l.foldl (Scan.step h) s).min = s.min ∨ ∃ i ∈ l, (l.foldl (Scan.step h) s).min = h i) := by
  induction l generalizing s with
  | nil => simp
  | cons a l ih =>
    obtain ⟨h1, h2, h3⟩ := ih (Scan.step h s a)
    rw [step_min] at h1 h3
    simp only [List.foldl_cons, List.mem_cons, forall_eq_or_imp]
    refine ⟨h1.trans (min_le_left _ _), ⟨h1.trans (min_le_right _ _), h2⟩, ?_⟩
    rcases h3 with h3 | ⟨i, hi, h3⟩
    · rcases min_choice s.min (h a) with h4 | h4
      · left; rw [h3, h4]
      · right; exact ⟨a, Or.inl rfl, by rw [h3, h4]⟩
    · right; exact ⟨i, Or.inr hi, h3⟩

theorem fold_max (h : ℕ → Q) (l : List ℕ) (s : Scan Q) :
    s.max ≤ (l.foldl (Scan.step h) s).max ∧ (∀ i ∈ l, h i ≤ (l.foldl (Scan.step h) s).max) ∧
      ((l.foldl (Scan.step h) s).max = s.max ∨ ∃ i ∈ l, (l.foldl (Scan.step h) s).max = h i) := by
  induction l generalizing s with
  | nil => simp
  | cons a l ih =>
    obtain ⟨h1, h2, h3⟩ := ih (Scan.step h s a)
    rw [step_max] at h1 h3
    simp only [List.foldl_cons, List.mem_cons, forall_eq_or_imp]
    refine ⟨(le_max_left _ _).trans h1, ⟨(le_max_right _ _).trans h1, h2⟩, ?_⟩
    rcases h3 with h3 | ⟨i, hi, h3⟩
    · rcases max_choice s.max (h a) with h4 | h4
      · left; rw [h3, h4]
      · right; exact ⟨a, Or.inl rfl, by rw [h3, h4]⟩
    · right; exact ⟨i, Or.inr hi, h3⟩

variable [FloorSemiring Q]

theorem first_eq (n : ℕ) : ⌊(n : Q) * (1 / 3)⌋₊ = n / 3 := by
  have : (n : Q) * (1 / 3) = (n : Q) / ((3 : ℕ) : Q) := by push_cast; ring
  rw [this]; exact Nat.floor_div_eq_div n 3

theorem mem_scanned (n i : ℕ) : i ∈ List.range' ⌊(n : Q) * (1 / 3)⌋₊ (n - ⌊(n : Q) * (1 / 3)⌋₊) ↔ Retained n i := by
  rw [first_eq, List.mem_range'_1, Retained]
  omega

/-- The spread never exceeds what the scan reports. -/
theorem scan_bounds (h : ℕ → Q) (n i : ℕ) (hi : Retained n i) : (scan h n).min ≤ h i ∧ h i ≤ (scan h n).max :=
  ⟨(fold_min h _ _).2.1 i ((mem_scanned (Q := Q) n i).2 hi), (fold_max h _ _).2.1 i ((mem_scanned (Q := Q) n i).2 hi)⟩

theorem retained_last (n : ℕ) (hn : n ≠ 0) : Retained n (n - 1) := by unfold Retained; omega

theorem scan_min_mem (h : ℕ → Q) (n : ℕ) (hn : n ≠ 0) (hb : ∀ i, Retained n i → h i ≤ maxReal) :
    ∃ i, Retained n i ∧ (scan h n).min = h i := by
  rcases (fold_min h (List.range' ⌊(n : Q) * (1 / 3)⌋₊ (n - ⌊(n : Q) * (1 / 3)⌋₊)) ⟨maxReal, 0, -maxReal, 0⟩).2.2 with h1 | ⟨i, hi, h1⟩
  · refine ⟨n - 1, retained_last n hn, le_antisymm (scan_bounds h n _ (retained_last n hn)).1 ?_⟩
    show _ ≤ (List.foldl _ _ _ : Scan Q).min
    rw [h1]; exact hb _ (retained_last n hn)
  · exact ⟨i, (mem_scanned n i).1 hi, h1⟩

theorem scan_max_mem (h : ℕ → Q) (n : ℕ) (hn : n ≠ 0) (hb : ∀ i, Retained n i → -maxReal ≤ h i) :
    ∃ i, Retained n i ∧ (scan h n).max = h i := by
  rcases (fold_max h (List.range' ⌊(n : Q) * (1 / 3)⌋₊ (n - ⌊(n : Q) * (1 / 3)⌋₊)) ⟨maxReal, 0, -maxReal, 0⟩).2.2 with h1 | ⟨i, hi, h1⟩
  · refine ⟨n - 1, retained_last n hn, le_antisymm ?_ (scan_bounds h n _ (retained_last n hn)).2⟩
    show (List.foldl _ _ _ : Scan Q).max ≤ _
    rw [h1]; exact hb _ (retained_last n hn)
  · exact ⟨i, (mem_scanned n i).1 hi, h1⟩

end Est

namespace Histo
variable {F : Type} [AddCommGroup F] [Module Q F]

theorem allocate_wf (beta : Q) (bins vol : ℕ) (size order : ℤ) (norm : Q) (junk : ℤ → F)
    (hs : 0 < size) (ho : 0 < order) (hf : order * size < 4294967296) :
    ∃ h, allocate beta bins vol size order norm junk = .ok h ∧ h.Wf order size ∧ h.beta = beta ∧
      h.norm = norm * (bins : Q) / (beta ^ 2 * (vol : Q)) ∧ h.normAccu = 0 ∧
      ∀ i, 0 ≤ i → i < order * size → h.data i = 0 := by
  have h1 : order < 4294967296 := by nlinarith
  have hw : wrap order = order := Int.emod_eq_of_lt ho.le h1
  have hw2 : wrap (order * size) = order * size := Int.emod_eq_of_lt (by positivity) hf
  refine ⟨_, by simp only [allocate, hw]; rw [if_neg ho.ne'], ⟨ho, hs, hf, ?_, ?_⟩, rfl, ?_, rfl, ?_⟩
  · simp only [clear, hw2]
  · simp only [clear, hw2]; rw [mul_comm]; exact Int.mul_ediv_cancel _ ho.ne'
  · simp only [clear]
    rw [mul_div_assoc', div_div, div_div, sq, mul_assoc]
  · intro i h0 h2
    simp only [clear, hw2]
    rw [if_pos ⟨h0, h2⟩]

/-- The cell of order `n` and table index `i`. -/
theorem index_eq {h : Histo Q F} {orders size : ℤ} (hw : h.Wf orders size) {n i : ℤ} (hn : 1 ≤ n) (hn2 : n ≤ orders)
    (hi : 0 ≤ i) (hi2 : i < size) :
    wrap ((n - 1) * h.perOrder + i) = (n - 1) * size + i ∧ 0 ≤ (n - 1) * size + i ∧
      (n - 1) * size + i < orders * size := by
  have h1 : 0 ≤ (n - 1) * size := mul_nonneg (by omega) hw.size_pos.le
  have h2 : (n - 1) * size + i < orders * size := by
    have : (n - 1) * size ≤ (orders - 1) * size := mul_le_mul_of_nonneg_right (by omega) hw.size_pos.le
    nlinarith
  have h3 := hw.fits
  refine ⟨?_, by omega, h2⟩
  rw [hw.perOrder]
  exact Int.emod_eq_of_lt (by omega) (by omega)

theorem index_inj {size n i n' i' : ℤ} (hi : 0 ≤ i) (hi2 : i < size) (hi' : 0 ≤ i') (hi2' : i' < size)
    (h : (n - 1) * size + i = (n' - 1) * size + i') : n = n' ∧ i = i' := by
  have h1 : i = i' := by
    have e1 : ((n - 1) * size + i) % size = i := by
      rw [add_comm, Int.add_mul_emod_self_right]; exact Int.emod_eq_of_lt hi hi2
    have e2 : ((n' - 1) * size + i') % size = i' := by
      rw [add_comm, Int.add_mul_emod_self_right]; exact Int.emod_eq_of_lt hi' hi2'
    rw [← e1, ← e2, h]
  subst h1
  have h2 : (n - 1) * size = (n' - 1) * size := by omega
  have := mul_right_cancel₀ (by omega : size ≠ 0) h2
  exact ⟨by omega, rfl⟩

end Histo

end Feyn
