import Verif.Proof.WordOps
import Verif.Proof.SimMain
import Verif.Proof.EnvSim
import Verif.Spec.Words
import Mathlib.Algebra.BigOperators.Fin

/-!
# One step and several steps in terms of words
-/

namespace Feyn

section
variable {Q F : Type} [Field Q] [LinearOrder Q] [IsStrictOrderedRing Q] [Field F] {P : Params Q F} {d : Diag Q F}

/-- The diagram after one step. -/
def hopD (P : Params Q F) (d : Diag Q F) (o : Words) : Res (Diag Q F) :=
  match selectOp P (urn Q (o 0)) with
  | none => .ok d
  | some op => runOp P op (fun i => o (i + 1)) d >>= fun out => .ok out.d

def valD (g : Diag Q F → Q) : Res (Diag Q F) → Q
  | .ok d => g d
  | _ => 0

def valO (g : Diag Q F → Q) : Res (Out Q F) → Q
  | .ok out => g out.d
  | _ => 0

/-- As `CellFree`, for relabelled diagrams, and on consistent diagrams only. -/
structure Tame (P : Params Q F) (g : Diag Q F → Q) : Prop where
  cells : ∀ ρ d d', Inv P d → Inv P d' → Alike BSim ρ d d' → g d' = g d
  nonneg : ∀ d, Inv P d → 0 ≤ g d
  le_one : ∀ d, Inv P d → g d ≤ 1

omit [Field Q] [LinearOrder Q] [IsStrictOrderedRing Q] [Field F] in
theorem alike_ext (h : d.hasGamma = 0) (e : Ext Q) : Alike BSim Ren.id d { d with ext := e } := by
  constructor <;> first
    | rfl
    | exact ⟨rfl, fun _ _ => rfl, fun _ _ => rfl⟩
    | (intro q; exact absurd h q)
    | (intros; rfl)

variable {g : Diag Q F → Q}

/-- The expectation of `g` after the given move has been drawn. -/
def moveMean (P : Params Q F) (d : Diag Q F) (g : Diag Q F → Q) (m : Move Q) : Q :=
  match m.accepted P d with
  | some (a, d') => a * g d' + (1 - a) * g d
  | none => g d

omit [IsStrictOrderedRing Q] in
theorem not_accepted (hg : Tame P g) (hi : Inv P d) {r : Res (Out Q F)} (h : GoodExt P d r) {out : Out Q F} (e : r = .ok out)
    (ha : out.tag ≠ .accept) : g out.d = g d := by
  obtain ⟨o', e', hi', hr⟩ := h
  rw [e] at e'
  cases e'
  rcases hr ha with q | ⟨q1, q2⟩
  · rw [q]
  · rw [q2] at hi' ⊢
    exact hg.cells _ _ _ hi hi' (alike_ext q1 _)

theorem moveMean_unit (hP : P.Wf) (hg : Tame P g) (hi : Inv P d) {m : Move Q} (hm : m ∈ allMoves P d) :
    0 ≤ moveMean P d g m ∧ moveMean P d g m ≤ 1 := by
  have h0 := hg.nonneg d hi
  have h1 := hg.le_one d hi
  unfold moveMean
  cases ha : m.accepted P d with
  | none => exact ⟨h0, h1⟩
  | some p =>
    obtain ⟨a, d'⟩ := p
    have hi' := accepted_inv hP hi hm ha
    obtain ⟨q, hq, rfl, -⟩ := accepted_some ha
    have a0 : 0 ≤ min 1 q := (lt_min one_pos hq).le
    have a1 : min 1 q ≤ 1 := min_le_left _ _
    have g0 := hg.nonneg d' hi'
    have g1 := hg.le_one d' hi'
    simp only
    constructor
    · have : 0 ≤ 1 - min 1 q := by linarith
      positivity
    · nlinarith

/-- The random number of the acceptance. -/
theorem avg_accept (hP : P.Wf) (hg : Tame P g) (hi : Inv P d) {m : Move Q} (hm : m ∈ allMoves P d) :
    |avg (fun w : Word => valO g (m.run P d (urn Q w))) - moveMean P d g m| ≤ 1 / (4294967296 : ℕ) := by
  obtain ⟨hv, -⟩ := (mem_allMoves hP).1 hm
  have h0 := hg.nonneg d hi
  have h1 := hg.le_one d hi
  unfold moveMean
  cases ha : m.accepted P d with
  | none =>
    have e : ∀ w : Word, valO g (m.run P d (urn Q w)) = g d := by
      intro w
      have hgood := Move.good hP hi hv (urn_nonneg (Q := Q) w)
      obtain ⟨out, e, -⟩ := id hgood
      rw [e]
      exact not_accepted hg hi hgood e (accepted_none ha (urn_nonneg w) e)
    simp only [e]
    rw [avg_const, sub_self, abs_zero]
    positivity
  | some p =>
    obtain ⟨a, d'⟩ := p
    have hi' := accepted_inv hP hi hm ha
    obtain ⟨q, hq, rfl, hrun⟩ := accepted_some ha
    have a0 : 0 ≤ min 1 q := (lt_min one_pos hq).le
    have a1 : min 1 q ≤ 1 := min_le_left _ _
    have g0 := hg.nonneg d' hi'
    have g1 := hg.le_one d' hi'
    generalize hA : min 1 q = a at *
    have e : ∀ w : Word, valO g (m.run P d (urn Q w)) = (if urn Q w < a then (1 : Q) else 0) * (g d' - g d) + g d := by
      intro w
      obtain ⟨x, y⟩ := hrun (urn Q w) (urn_nonneg w) (urn_lt_one w)
      by_cases hw : urn Q w < a
      · rw [x hw, if_pos hw]
        show g d' = _
        ring
      · obtain ⟨out, e, ht⟩ := y (not_lt.1 hw)
        rw [if_neg hw, e]
        show g out.d = _
        rw [not_accepted hg hi (Move.good hP hi hv (urn_nonneg (Q := Q) w)) e ht]
        ring
    simp only [e]
    rw [avg_add, avg_mul, avg_const]
    obtain ⟨b0, b1⟩ := avg_below (Q := Q) a a0 a1
    generalize avg (fun w : Word => if urn Q w < a then (1 : Q) else 0) = s at b0 b1 ⊢
    have : s * (g d' - g d) + g d - (a * g d' + (1 - a) * g d) = (s - a) * (g d' - g d) := by ring
    rw [this, abs_mul, abs_of_nonneg b0]
    refine le_trans (mul_le_of_le_one_right b0 ?_) b1.le
    rw [abs_le]
    constructor <;> linarith

/-- The expectation of `g` after the given update has been chosen. -/
def opMean (P : Params Q F) (d : Diag Q F) (g : Diag Q F → Q) (op : Op) : Q :=
  if op = .changeRVertex ∨ op = .changeSpin then g d else mean (movesOf P d op) (moveMean P d g)

theorem avgs_op (hP : P.Wf) (hg : Tame P g) (hi : Inv P d) (tail : Words) {op : Op} (ho : op.idx < numOps P) :
    |avgs tail 8 (fun o => valO g (runOp P op o d)) - opMean P d g op| ≤ drawBias P + 1 / (4294967296 : ℕ) := by
  unfold opMean
  have hpos : 0 ≤ drawBias P := div_nonneg (Nat.cast_nonneg _) (Nat.cast_nonneg _)
  by_cases c : op = .changeRVertex ∨ op = .changeSpin
  · rw [if_pos c]
    have e : (fun o => valO g (runOp P op o d)) = fun _ => g d := by
      funext o
      rcases c with rfl | rfl <;> rfl
    rw [e, avgs_const, sub_self, abs_zero]
    positivity
  · rw [if_neg c]
    push Not at c
    obtain ⟨k, f, C, hk, hC, hf, he⟩ := runOp_draws hP hi c.1 c.2
    have hm : ∀ m ∈ movesOf P d op, m ∈ allMoves P d := fun m hm =>
      Finset.mem_biUnion.2 ⟨op, Finset.mem_filter.2 ⟨mem_allOps op, ho⟩, hm⟩
    have key := hf (7 - k + 1) tail (fun m o => valO g (m.run P d (urn Q (o 0)))) (moveMean P d g) (1 / (4294967296 : ℕ))
      (fun m h => moveMean_unit hP hg hi (hm m h)) (fun m h => by
        show |(avg fun w : Word => avgs tail (7 - k) fun _ => valO g (m.run P d (urn Q w))) - _| ≤ _
        simp only [avgs_const]
        exact avg_accept hP hg hi (hm m h))
    have e8 : 7 - k + 1 + k = 8 := by omega
    rw [e8] at key
    have e : (fun o => valO g (runOp P op o d)) = fun o => valO g ((f o).run P d (urn Q (shift k o 0))) := by
      funext o
      rw [he o, shift, zero_add]
    rw [e]
    linarith

/-- The chosen update. -/
noncomputable def opOf (P : Params Q F) (w : Word) : Op :=
  Classical.choose (selectOp_spec P (urn Q w) (urn_nonneg w) (urn_lt_one w))

theorem opOf_spec (P : Params Q F) (w : Word) : selectOp P (urn Q w) = some (opOf P w) ∧ (opOf P w).idx < numOps P ∧
    ((opOf P w).idx : Q) / (numOps P : Q) ≤ urn Q w ∧ urn Q w < (((opOf P w).idx + 1 : ℕ) : Q) / (numOps P : Q) :=
  Classical.choose_spec (selectOp_spec P (urn Q w) (urn_nonneg w) (urn_lt_one w))

theorem op_idx_inj {a b : Op} (h : a.idx = b.idx) : a = b := by
  cases a <;> cases b <;> first | rfl | (exact absurd h (by decide))

/-- The updates that are called. -/
def calledOps (P : Params Q F) : Finset Op := allOps.filter fun op => op.idx < numOps P

omit [IsStrictOrderedRing Q] in
theorem card_calledOps (P : Params Q F) : (calledOps P).card = numOps P := by
  unfold calledOps numOps
  split <;> decide

theorem opOf_iff (P : Params Q F) (w : Word) {op : Op} (ho : op.idx < numOps P) :
    opOf P w = op ↔ ¬ urn Q w < (op.idx : Q) / (numOps P : Q) ∧ urn Q w < ((op.idx + 1 : ℕ) : Q) / (numOps P : Q) := by
  have hn : (0 : Q) < numOps P := numOps_cast_pos P
  obtain ⟨-, h1, h2, h3⟩ := opOf_spec P w
  constructor
  · rintro rfl
    exact ⟨not_lt.2 h2, h3⟩
  · rintro ⟨h4, h5⟩
    have h4 := not_lt.1 h4
    have x1 := lt_of_le_of_lt h2 h5
    have x2 := lt_of_le_of_lt h4 h3
    rw [div_lt_div_iff_of_pos_right hn, Nat.cast_lt] at x1 x2
    exact op_idx_inj (by omega)

theorem op_share (P : Params Q F) {op : Op} (ho : op.idx < numOps P) :
    |avg (fun w => if opOf P w = op then (1 : Q) else 0) - 1 / (numOps P : Q)| ≤ 1 / (4294967296 : ℕ) := by
  have hn : (0 : Q) < numOps P := numOps_cast_pos P
  have hle : op.idx + 1 ≤ numOps P := ho
  have e : ∀ w : Word, (if opOf P w = op then (1 : Q) else 0) =
      (if urn Q w < ((op.idx + 1 : ℕ) : Q) / (numOps P : Q) then (1 : Q) else 0) - if urn Q w < (op.idx : Q) / (numOps P : Q) then 1 else 0 := by
    intro w
    have lt : urn Q w < (op.idx : Q) / (numOps P : Q) → urn Q w < ((op.idx + 1 : ℕ) : Q) / (numOps P : Q) := fun q =>
      lt_of_lt_of_le q (div_le_div_of_nonneg_right (Nat.cast_le.2 (Nat.le_succ _)) hn.le)
    simp only [opOf_iff P w ho]
    by_cases h1 : urn Q w < (op.idx : Q) / (numOps P : Q)
    · rw [if_neg fun q => q.1 h1, if_pos (lt h1), if_pos h1, sub_self]
    · rw [if_neg h1, sub_zero]
      by_cases h2 : urn Q w < ((op.idx + 1 : ℕ) : Q) / (numOps P : Q)
      · rw [if_pos ⟨h1, h2⟩, if_pos h2]
      · rw [if_neg fun q => h2 q.2, if_neg h2]
  simp only [e]
  rw [← avg_sub]
  have b1 := avg_below (Q := Q) (((op.idx + 1 : ℕ) : Q) / (numOps P : Q)) (by positivity)
    (div_le_one_of_le₀ (Nat.cast_le.2 hle) hn.le)
  have b2 := avg_below (Q := Q) ((op.idx : Q) / (numOps P : Q)) (by positivity)
    (div_le_one_of_le₀ (Nat.cast_le.2 (le_trans (Nat.le_succ _) hle)) hn.le)
  have e3 : ((op.idx + 1 : ℕ) : Q) / (numOps P : Q) = (op.idx : Q) / (numOps P : Q) + 1 / numOps P := by
    push_cast
    rw [add_div]
  rw [abs_le]
  constructor <;> linarith [b1.1, b1.2, b2.1, b2.2]

theorem Fair.op (P : Params Q F) : Fair (opOf P) (calledOps P) ((numOps P : Q) / (4294967296 : ℕ)) := by
  have key := Fair.of_share (Q := Q) (f := opOf P) (A := calledOps P) (ε := 1 / (4294967296 : ℕ))
    (fun w => Finset.mem_filter.2 ⟨mem_allOps _, (opOf_spec P w).2.1⟩) (by
      intro op hop
      rw [card_calledOps]
      exact op_share P (Finset.mem_filter.1 hop).2)
  rw [card_calledOps, mul_one_div] at key
  exact key

theorem chance_op (hP : P.Wf) (hi : Inv P d) {op : Op} (h1 : op ≠ .changeRVertex) (h2 : op ≠ .changeSpin) {m : Move Q}
    (hm : m ∈ movesOf P d op) : m.chance P d = 1 / (numOps P : Q) / ((movesOf P d op).card : Q) := by
  have hs := sum_movesOf hP hi h1 h2
  have hc : ∀ m' ∈ movesOf P d op, m'.chance P d = m.chance P d := by
    intro m' hm'
    cases op <;> simp only [movesOf, Finset.mem_image, Finset.mem_singleton, Finset.notMem_empty] at hm hm'
    all_goals (obtain ⟨x, -, rfl⟩ := hm; obtain ⟨x', -, rfl⟩ := hm'; rfl)
  rw [Finset.sum_congr rfl hc, Finset.sum_const, nsmul_eq_mul] at hs
  have : ((movesOf P d op).card : Q) ≠ 0 := by
    have := Finset.card_pos.2 ⟨m, hm⟩
    exact_mod_cast this.ne'
  rw [← hs]
  field_simp

/-- The mean over the updates is the expectation of the specification. -/
theorem mean_ops (hP : P.Wf) (hi : Inv P d) (g : Diag Q F → Q) : mean (calledOps P) (opMean P d g) = stepMean P g d := by
  have hn : (0 : Q) < numOps P := numOps_cast_pos P
  have e1 : ∀ m : Move Q, m.chance P d * moveMean P d g m = m.gain P d g + (m.chance P d - m.exit P d) * g d := by
    intro m
    unfold moveMean Move.gain Move.exit
    cases m.accepted P d with
    | none => simp
    | some p => obtain ⟨a, d'⟩ := p; simp only; ring
  have e2 : ∀ op ∈ calledOps P, opMean P d g op / (numOps P : Q) =
      (∑ m ∈ movesOf P d op, m.gain P d g) + (1 / (numOps P : Q) - ∑ m ∈ movesOf P d op, m.exit P d) * g d := by
    intro op _
    unfold opMean
    by_cases c : op = .changeRVertex ∨ op = .changeSpin
    · rw [if_pos c]
      have : movesOf P d op = ∅ := by rcases c with rfl | rfl <;> rfl
      rw [this, Finset.sum_empty, Finset.sum_empty]
      ring
    · rw [if_neg c]
      push Not at c
      have hs := sum_movesOf hP hi c.1 c.2
      have : mean (movesOf P d op) (moveMean P d g) / (numOps P : Q) = ∑ m ∈ movesOf P d op, m.chance P d * moveMean P d g m := by
        rw [Finset.sum_congr rfl fun m hm => by rw [chance_op hP hi c.1 c.2 hm], ← Finset.mul_sum]
        unfold mean
        ring
      rw [this, Finset.sum_congr rfl fun m _ => e1 m, Finset.sum_add_distrib, ← Finset.sum_mul, Finset.sum_sub_distrib, hs]
  have dis : Set.PairwiseDisjoint (calledOps P : Set Op) (movesOf P d) := by
    intro a ha b hb hab
    refine Finset.disjoint_left.2 fun m h1 h2 => hab ?_
    have x1 := ((mem_movesOf hP (Finset.mem_filter.1 (Finset.mem_coe.1 ha)).2).1 h1).1
    have x2 := ((mem_movesOf hP (Finset.mem_filter.1 (Finset.mem_coe.1 hb)).2).1 h2).1
    rw [← x1, ← x2]
  have s1 : ∀ f : Move Q → Q, ∑ m ∈ allMoves P d, f m = ∑ op ∈ calledOps P, ∑ m ∈ movesOf P d op, f m := fun f =>
    Finset.sum_biUnion dis
  unfold mean stepMean stays
  rw [card_calledOps, Finset.sum_div, Finset.sum_congr rfl e2, Finset.sum_add_distrib, ← Finset.sum_mul, Finset.sum_sub_distrib,
    Finset.sum_const, card_calledOps, nsmul_eq_mul, mul_one_div_cancel hn.ne', s1, s1]

theorem wordBias_eq (P : Params Q F) : (numOps P : Q) / (4294967296 : ℕ) + (drawBias P + 1 / (4294967296 : ℕ)) ≤ wordBias P := by
  have h : numOps P ≤ 23 := by unfold numOps; split <;> norm_num
  have : (numOps P : Q) ≤ 23 := by exact_mod_cast h
  unfold drawBias wordBias
  rw [← add_div, ← add_div]
  push_cast
  exact div_le_div_of_nonneg_right (by linarith) (by norm_num)

/-- Average over the words of one step. -/
def stepAvg (P : Params Q F) (tail : Words) (g : Diag Q F → Q) (d : Diag Q F) : Q := avgs tail 9 fun o => valD g (hopD P d o)

theorem opMean_unit (hP : P.Wf) (hg : Tame P g) (hi : Inv P d) {op : Op} (ho : op ∈ calledOps P) : 0 ≤ opMean P d g op ∧ opMean P d g op ≤ 1 := by
  unfold opMean
  split_ifs
  · exact ⟨hg.nonneg d hi, hg.le_one d hi⟩
  · exact mean_unit fun m hm => moveMean_unit hP hg hi (Finset.mem_biUnion.2 ⟨op, ho, hm⟩)

/-- One step. -/
theorem stepAvg_close (hP : P.Wf) (hg : Tame P g) (hi : Inv P d) (tail : Words) :
    |stepAvg P tail g d - stepMean P g d| ≤ wordBias P := by
  have key := (Fair.op P).step (R := fun op => avgs tail 8 fun o => valO g (runOp P op o d)) (m := opMean P d g)
    (fun op ho => opMean_unit hP hg hi ho) (fun op ho => avgs_op hP hg hi tail (Finset.mem_filter.1 ho).2)
  rw [mean_ops hP hi] at key
  have e : stepAvg P tail g d = avg fun w : Word => avgs tail 8 fun o => valO g (runOp P (opOf P w) o d) := by
    show (avg fun w : Word => avgs tail 8 fun o => valD g (hopD P d (consW w o))) = _
    refine congrArg avg (funext fun w => congrArg (avgs tail 8) (funext fun o => ?_))
    unfold hopD
    show valD g (match selectOp P (urn Q w) with
      | none => .ok d
      | some op => runOp P op o d >>= fun out => .ok out.d) = _
    rw [(opOf_spec P w).1]
    show valD g (runOp P (opOf P w) o d >>= fun out => .ok out.d) = _
    generalize runOp P (opOf P w) o d = r
    cases r <;> rfl
  rw [e]
  exact le_trans key (wordBias_eq P)

/-! ### Several steps -/

theorem hopD_good (hP : P.Wf) (hi : Inv P d) (o : Words) : ∃ d', hopD P d o = .ok d' ∧ Inv P d' := by
  unfold hopD
  obtain ⟨op, e, ho, -⟩ := selectOp_spec P (urn Q (o 0)) (urn_nonneg _) (urn_lt_one _)
  rw [e]
  by_cases c : op = .changeRVertex ∨ op = .changeSpin
  · rcases c with rfl | rfl <;> exact ⟨d, rfl, hi⟩
  · push Not at c
    obtain ⟨m, w, -, hv, -, er⟩ := runOp_isMove hP hi ho c.1 c.2 fun i => o (i + 1)
    obtain ⟨out, e2, hi', -⟩ := Move.good hP hi hv (urn_nonneg (Q := Q) w)
    exact ⟨out.d, by simp only [er, e2, Res.ok_bind], hi'⟩

theorem hopD_sim (hP : P.Wf) {ρ : Ren} {d' : Diag Q F} (hi : Inv P d) (hi' : Inv P d') (S : Alike BSim ρ d d') (o : Words) :
    ∃ e e', hopD P d o = .ok e ∧ hopD P d' o = .ok e' ∧ Inv P e ∧ Inv P e' ∧ Alike BSim ρ e e' := by
  obtain ⟨e, h1, h2⟩ := hopD_good hP hi o
  obtain ⟨e', h1', h2'⟩ := hopD_good hP hi' o
  refine ⟨e, e', h1, h1', h2, h2', ?_⟩
  unfold hopD at h1 h1'
  obtain ⟨op, es, -⟩ := selectOp_spec P (urn Q (o 0)) (urn_nonneg _) (urn_lt_one _)
  rw [es] at h1 h1'
  have hs := runOp_sim hP (TabEq.refl P) hi S op fun i => o (i + 1)
  simp only at h1 h1'
  revert hs h1 h1'
  generalize runOp P op (fun i => o (i + 1)) d = r
  generalize runOp P op (fun i => o (i + 1)) d' = r'
  intro h1 h1' hs
  cases r <;> cases r' <;> first | (cases h1; done) | (cases h1'; done) | skip
  cases h1
  cases h1'
  exact hs.2.2

theorem avgs_unit (tail : Words) {n : ℕ} {f : Words → Q} (h0 : ∀ o, 0 ≤ f o) (h1 : ∀ o, f o ≤ 1) : 0 ≤ avgs tail n f ∧ avgs tail n f ≤ 1 := by
  induction n generalizing f with
  | zero => exact ⟨h0 _, h1 _⟩
  | succ n ih =>
    have := fun w => ih (f := fun o => f (consW w o)) (fun o => h0 _) fun o => h1 _
    exact ⟨avg_nonneg fun w => (this w).1, avg_le fun w => (this w).2⟩

theorem stepAvg_tame (hP : P.Wf) (hg : Tame P g) (tail : Words) : Tame P (stepAvg P tail g) := by
  have hu : ∀ d, Inv P d → ∀ o, 0 ≤ valD g (hopD P d o) ∧ valD g (hopD P d o) ≤ 1 := by
    intro d hi o
    obtain ⟨e, h1, h2⟩ := hopD_good hP hi o
    rw [h1]
    exact ⟨hg.nonneg e h2, hg.le_one e h2⟩
  refine ⟨fun ρ d d' hi hi' S => ?_, fun d hi => ?_, fun d hi => ?_⟩
  · unfold stepAvg
    congr 1
    funext o
    obtain ⟨e, e', h1, h1', h2, h2', s⟩ := hopD_sim hP hi hi' S o
    rw [h1, h1']
    exact hg.cells ρ e e' h2 h2' s
  · exact (avgs_unit tail (fun o => (hu d hi o).1) fun o => (hu d hi o).2).1
  · exact (avgs_unit tail (fun o => (hu d hi o).1) fun o => (hu d hi o).2).2

/-- Average over the words of several steps. -/
def stepsAvg (P : Params Q F) (tail : Words) (g : Diag Q F → Q) : ℕ → Diag Q F → Q
  | 0 => g
  | n + 1 => stepAvg P tail (stepsAvg P tail g n)

theorem stepsAvg_tame (hP : P.Wf) (hg : Tame P g) (tail : Words) (n : ℕ) : Tame P (stepsAvg P tail g n) := by
  induction n with
  | zero => exact hg
  | succ n ih => exact stepAvg_tame hP ih tail

/-- The expectation is monotonous. -/
theorem stepMean_close (hP : P.Wf) (hi : Inv P d) {f f' : Diag Q F → Q} {B : Q}
    (h : ∀ e, Inv P e → |f e - f' e| ≤ B) : |stepMean P f d - stepMean P f' d| ≤ B := by
  have hgain : ∀ m ∈ allMoves P d, |m.gain P d f - m.gain P d f'| ≤ m.exit P d * B := by
    intro m hm
    have hx := (exit_le hP hi m).1
    unfold Move.gain Move.exit at *
    cases ha : m.accepted P d with
    | none => simp
    | some p =>
      obtain ⟨a, d'⟩ := p
      rw [ha] at hx
      simp only at hx ⊢
      rw [← mul_sub, abs_mul, abs_of_nonneg hx]
      exact mul_le_mul_of_nonneg_left (h d' (accepted_inv hP hi hm ha)) hx
  have hst : 0 ≤ stays P d := stays_nonneg hP hi
  have e : stepMean P f d - stepMean P f' d = (∑ m ∈ allMoves P d, (m.gain P d f - m.gain P d f')) + stays P d * (f d - f' d) := by
    unfold stepMean
    rw [Finset.sum_sub_distrib]
    ring
  have h2 : |stays P d * (f d - f' d)| ≤ stays P d * B := by
    rw [abs_mul, abs_of_nonneg hst]
    exact mul_le_mul_of_nonneg_left (h d hi) hst
  have h3 : |∑ m ∈ allMoves P d, (m.gain P d f - m.gain P d f')| ≤ ∑ m ∈ allMoves P d, m.exit P d * B :=
    le_trans (Finset.abs_sum_le_sum_abs _ _) (Finset.sum_le_sum hgain)
  rw [← Finset.sum_mul] at h3
  rw [e]
  refine le_trans (abs_add_le _ _) (le_trans (add_le_add h3 h2) ?_)
  rw [← add_mul]
  unfold stays
  rw [add_sub_cancel, one_mul]

theorem wordBias_nonneg (P : Params Q F) : 0 ≤ wordBias P := div_nonneg (Nat.cast_nonneg _) (by norm_num)

theorem stepsAvg_close (hP : P.Wf) (hg : Tame P g) (hi : Inv P d) (tail : Words) (n : ℕ) :
    |stepsAvg P tail g n d - stepsMean P g n d| ≤ n * wordBias P := by
  induction n generalizing d with
  | zero => simp [stepsAvg, stepsMean]
  | succ n ih =>
    have h1 := stepAvg_close hP (stepsAvg_tame hP hg tail n) hi tail
    have h2 := stepMean_close hP hi fun e he => ih he
    show |stepAvg P tail (stepsAvg P tail g n) d - stepMean P (stepsMean P g n) d| ≤ _
    rw [abs_le] at h1 h2 ⊢
    push_cast
    constructor <;> linarith [h1.1, h1.2, h2.1, h2.2]

/-! ### As an average over tuples of words -/

omit [LinearOrder Q] [IsStrictOrderedRing Q] in
theorem sum_cons {X : Type} [Fintype X] (n : ℕ) (f : (Fin (n + 1) → X) → Q) :
    ∑ v, f v = ∑ x : X, ∑ v : Fin n → X, f (Fin.cons x v) := by
  rw [← Fintype.sum_prod_type', ← Equiv.sum_comp (Fin.consEquiv fun _ => X)]
  rfl

theorem stream_cons (tail : Words) {k : ℕ} (w : Word) (v : Fin k → Word) :
    stream tail (Fin.cons w v : Fin (k + 1) → Word) = consW w (stream tail v) := by
  funext i
  cases i with
  | zero => rfl
  | succ i =>
    show (if h : i + 1 < k + 1 then _ else _) = (if h : i < k then _ else _)
    by_cases h : i < k
    · rw [dif_pos (by omega), dif_pos h]
      rfl
    · rw [dif_neg (by omega), dif_neg h, Nat.add_sub_add_right]

omit [LinearOrder Q] [IsStrictOrderedRing Q] in
theorem avgs_eq (tail : Words) (k : ℕ) (f : Words → Q) : avgs tail k f = (∑ v : Fin k → Word, f (stream tail v)) / 4294967296 ^ k := by
  induction k generalizing f with
  | zero =>
    show f tail = _
    rw [Fintype.sum_unique, pow_zero, div_one]
    rfl
  | succ k ih =>
    show (avg fun w : Word => avgs tail k fun o => f (consW w o)) = _
    simp only [ih]
    unfold avg
    rw [sum_cons, ← Finset.sum_div, div_div, pow_succ]
    simp only [stream_cons]
    norm_num

omit [IsStrictOrderedRing Q] in
theorem hopD_hop (c : Chain Q F) (o : Words) :
    (∃ c', hopOne c o = .ok c' ∧ c'.P = c.P ∧ hopD c.P c.d o = .ok c'.d) ∨
      (∀ c', hopOne c o ≠ .ok c') ∧ ∀ d', hopD c.P c.d o ≠ .ok d' := by
  unfold hopOne hopD
  cases selectOp c.P (urn Q (o 0)) with
  | none => exact Or.inl ⟨_, rfl, rfl, rfl⟩
  | some op =>
    simp only
    generalize runOp c.P op (fun i => o (i + 1)) c.d = r
    cases r with
    | ok out => exact Or.inl ⟨_, rfl, rfl, rfl⟩
    | abort => exact Or.inr ⟨fun _ => by simp, fun _ => by simp⟩
    | ub => exact Or.inr ⟨fun _ => by simp, fun _ => by simp⟩

omit [IsStrictOrderedRing Q] in
theorem stepsAvg_eq (tail : Words) (g : Diag Q F → Q) (n : ℕ) (c : Chain Q F) : stepsAvg c.P tail g n c.d = runMean c tail n g := by
  induction n generalizing c with
  | zero =>
    unfold runMean
    rw [Fintype.sum_unique, pow_zero, div_one]
    rfl
  | succ n ih =>
    show avgs tail 9 (fun o => valD (stepsAvg c.P tail g n) (hopD c.P c.d o)) = _
    rw [avgs_eq]
    unfold runMean at ih ⊢
    generalize (4294967296 : Q) ^ 9 = M at ih ⊢
    rw [sum_cons (X := Fin 9 → Word) n, pow_succ', ← div_div, Finset.sum_div, Finset.sum_div, Finset.sum_div]
    refine Finset.sum_congr rfl fun v _ => ?_
    have e : ∀ vs : Fin n → Fin 9 → Word, hop c (List.ofFn fun i => stream tail ((Fin.cons v vs : Fin (n + 1) → Fin 9 → Word) i)) =
        hopOne c (stream tail v) >>= fun c' => hop c' (List.ofFn fun i => stream tail (vs i)) := by
      intro vs
      rw [List.ofFn_succ]
      rfl
    simp only [e]
    rcases hopD_hop c (stream tail v) with ⟨c', h1, h2, h3⟩ | ⟨h1, h2⟩
    · rw [h3, h1]
      show stepsAvg c.P tail g n c'.d / _ = _
      rw [← h2, ih c', div_right_comm]
      rfl
    · have e1 : valD (stepsAvg c.P tail g n) (hopD c.P c.d (stream tail v)) = 0 := by
        revert h2
        cases hopD c.P c.d (stream tail v) with
        | ok d' => exact fun h => absurd rfl (h d')
        | abort => exact fun _ => rfl
        | ub => exact fun _ => rfl
      have e2 : ∀ vs : Fin n → Fin 9 → Word,
          runValue g (hopOne c (stream tail v) >>= fun c' => hop c' (List.ofFn fun i => stream tail (vs i))) = 0 := by
        intro vs
        revert h1
        cases hopOne c (stream tail v) with
        | ok c' => exact fun h => absurd rfl (h c')
        | abort => exact fun _ => rfl
        | ub => exact fun _ => rfl
      rw [e1, Finset.sum_congr rfl fun vs _ => e2 vs, Finset.sum_const_zero, zero_div, zero_div]

theorem Alike.upTo {ρ : Ren} {d' : Diag Q F} (S : Alike BSim ρ d d') (hi : Inv P d) (hi' : Inv P d') : SameUpToCells d d' := by
  have S' : Alike BSet ρ d d' := { S with
    bG := ⟨hi.count.gWf, hi'.count.gWf, S.bG.avail, S.bG.mem ρ.fixG⟩
    bW := ⟨hi.count.wWf, hi'.count.wWf, S.bW.avail, S.bW.mem ρ.fixW⟩
    bV := ⟨hi.count.verWf, hi'.count.verWf, S.bV.avail, S.bV.mem ρ.fixV⟩ }
  exact ⟨_, _, _, S'.same'⟩

theorem CellFree.tame (hg : CellFree P g) : Tame P g :=
  ⟨fun _ d d' hi hi' S => (hg.cells d d' hi hi' (S.upTo hi hi')).symm, fun d _ => hg.nonneg d, fun d _ => hg.le_one d⟩

end
end Feyn
