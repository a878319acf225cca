import Verif.Proof.WordStep
import Verif.Props.Stationary

/-!
# C89: the steps in terms of the words of the generator
-/

namespace Feyn

/-- **C89, choices.** How many of the 2^32 words choose the value `k` from `lo` to `hi`: the remainder modulo the number `n` of values makes
the first `2^32 mod n` of them more likely, by one word. -/
theorem C89_choice {lo hi k : ℤ} (h1 : lo ≤ k) (h2 : k ≤ hi) :
    (Finset.univ.filter fun w : Word => irn w lo hi = .ok k).card =
      4294967296 / (hi - lo + 1).toNat + if (k - lo).toNat < 4294967296 % (hi - lo + 1).toNat then 1 else 0 := by
  have hn : 0 < (hi - lo + 1).toNat := by omega
  rw [← card_mod (hi - lo + 1).toNat (k - lo).toNat hn (by omega)]
  refine congrArg Finset.card (Finset.filter_congr fun w _ => ?_)
  rw [irn_eq w _ hn lo hi (by omega), Res.ok.injEq]
  omega

/-- **C89, even choices.** All values are equally likely just if their number divides 2^32. -/
theorem C89_even {lo hi : ℤ} (h : lo ≤ hi) :
    (∀ k k' : ℤ, lo ≤ k → k ≤ hi → lo ≤ k' → k' ≤ hi → (Finset.univ.filter fun w : Word => irn w lo hi = .ok k).card =
      (Finset.univ.filter fun w : Word => irn w lo hi = .ok k').card) ↔ (hi - lo + 1).toNat ∣ 4294967296 := by
  have hn : 0 < (hi - lo + 1).toNat := by omega
  constructor
  · intro hk
    have e := hk lo hi le_rfl h h le_rfl
    rw [C89_choice le_rfl h, C89_choice h le_rfl, Nat.add_left_cancel_iff] at e
    have hlt := Nat.mod_lt 4294967296 hn
    rw [if_neg (show ¬ (hi - lo).toNat < 4294967296 % (hi - lo + 1).toNat by omega)] at e
    by_contra hd
    have : 0 < 4294967296 % (hi - lo + 1).toNat := Nat.pos_of_ne_zero fun q => hd (Nat.dvd_of_mod_eq_zero q)
    rw [if_pos (by omega)] at e
    exact absurd e (by norm_num)
  · intro hd k k' a b c d
    rw [C89_choice a b, C89_choice c d, Nat.mod_eq_zero_of_dvd hd]
    simp

/-- **C89, refuted: momenta are equally likely.** 214738 words choose the momentum -10000, 214737 the momentum 10000. -/
theorem C89_refuted_momenta : (Finset.univ.filter fun w : Word => pickK w = .ok (-10000)).card = 214738 ∧
    (Finset.univ.filter fun w : Word => pickK w = .ok 10000).card = 214737 := by
  have e : ∀ (w : Word) (k : ℤ), pickK w = .ok k ↔ irn w (-10000) 10000 = .ok k := by
    intro w k
    rw [pickK_eq, irn_eq w 20001 (by norm_num) (-10000) 10000 (by norm_num)]
    rfl
  simp only [e]
  rw [C89_choice (by norm_num) (by norm_num), C89_choice (by norm_num) (by norm_num)]
  exact ⟨rfl, rfl⟩

section
variable {Q F : Type} [Field Q] [LinearOrder Q] [IsStrictOrderedRing Q] [Field F] {P : Params Q F}

/-- **C89, random numbers.** The share of the words for which the random number is below `a` is `a` rounded up to a multiple of 2^-32. -/
theorem C89_number (a : Q) (h0 : 0 ≤ a) (h1 : a ≤ 1) :
    a ≤ ((Finset.univ.filter fun w : Word => urn Q w < a).card : Q) / 4294967296 ∧
      ((Finset.univ.filter fun w : Word => urn Q w < a).card : Q) / 4294967296 < a + 1 / 4294967296 := by
  have h := avg_below (Q := Q) a h0 h1
  rw [avg_ite] at h
  push_cast at h
  constructor <;> linarith [h.1, h.2]

/-- **C89, updates.** The share of the words for which a given update is called differs from that of the other updates by less than
2^-32. -/
theorem C89_update (P : Params Q F) {op : Op} (ho : op.idx < numOps P) :
    |((Finset.univ.filter fun w : Word => selectOp P (urn Q w) = some op).card : Q) / 4294967296 - 1 / numOps P| ≤ 1 / 4294967296 := by
  have h := op_share P ho
  rw [avg_ite] at h
  have e : ∀ w : Word, selectOp P (urn Q w) = some op ↔ opOf P w = op := fun w => by rw [(opOf_spec P w).1, Option.some.injEq]
  simp only [e]
  push_cast at h
  exact h

omit [IsStrictOrderedRing Q] in
/-- **C89, nine words.** A step depends on no more than nine words. -/
theorem C89_words {c : Chain Q F} {o o' : Words} (h : ∀ i < 9, o i = o' i) : hopOne c o = hopOne c o' := by
  have h0 := h 0 (by norm_num)
  have h1 := h 1 (by norm_num)
  have h2 := h 2 (by norm_num)
  have h3 := h 3 (by norm_num)
  have h4 := h 4 (by norm_num)
  have h5 := h 5 (by norm_num)
  have h6 := h 6 (by norm_num)
  have h7 := h 7 (by norm_num)
  have h8 := h 8 (by norm_num)
  unfold hopOne
  rw [h0]
  cases selectOp c.P (urn Q (o' 0)) with
  | none => rfl
  | some op =>
    have e : runOp c.P op (fun i => o (i + 1)) c.d = runOp c.P op (fun i => o' (i + 1)) c.d := by
      cases op <;> simp only [runOp, createWorm, deleteWorm, moveWormG, moveWormW, reconnect, addInteraction, delInteraction, addDelta, delDelta,
        changeTau, changeRLoop, g2w, w2g, delta2cont, cont2delta, toOrder0, backToOrder1, toGGGammaG, fromGGGammaG, toWWGammaW, fromWWGammaW,
        zero_add, Nat.reduceAdd, h1, h2, h3, h4, h5, h6, h7, h8]
    simp only [e]

/-- **C89, the steps of a run.** From a consistent diagram `n` steps are made with words that are independent and equally likely. The
average of any quantity with values from 0 to 1 (in particular the probability of any event) differs from the expectation under `n` steps
of the Markov chain with even choices, of which `C86` is about, by at most `n` times `wordBias`. -/
theorem C89_steps {c : Chain Q F} (hP : c.P.Wf) (hi : Inv c.P c.d) {g : Diag Q F → Q} (hg : CellFree c.P g) (tail : Words) (n : ℕ) :
    |runMean c tail n g - stepsMean c.P g n c.d| ≤ n * wordBias c.P := by
  rw [← stepsAvg_eq]
  exact stepsAvg_close hP hg.tame hi tail n

open Classical in
theorem isDiag_cellFree (e : Diag Q F) : CellFree P (isDiag e) := by
  refine ⟨fun d d' hi hi' s => ?_, fun d => ?_, fun d => ?_⟩
  · unfold isDiag
    refine if_congr ⟨fun q => (s.symm hi).trans q, fun q => s.trans q⟩ rfl rfl
  · unfold isDiag
    split_ifs <;> norm_num
  · unfold isDiag
    split_ifs <;> norm_num

omit [IsStrictOrderedRing Q] in
theorem stepMean_isDiag (d e : Diag Q F) : stepMean P (isDiag e) d = stepProb P d e := by
  unfold stepMean stepProb goes
  congr 1
  · refine Finset.sum_congr rfl fun m _ => ?_
    unfold Move.gain Move.flow isDiag
    cases m.accepted P d with
    | none => rfl
    | some p => simp
  · unfold isDiag
    simp

/-- **C89, one step.** The share of the words with which a step leads from one diagram to another, up to the cells, is the transition
probability of `C86`, with an error of at most `wordBias`. -/
theorem C89_step {c : Chain Q F} (hP : c.P.Wf) (hi : Inv c.P c.d) (e : Diag Q F) (tail : Words) :
    |runMean c tail 1 (isDiag e) - stepProb c.P c.d e| ≤ wordBias c.P := by
  have h := C89_steps hP hi (isDiag_cellFree e) tail 1
  rw [Nat.cast_one, one_mul] at h
  rw [← stepMean_isDiag]
  exact h

/-- **C89, partial: the target distribution is stationary, up to the words.** If a state is drawn with probability proportional to its
weight and then one step is made, then the state `y` is met with a probability that differs from what it was by at most `wordBias`
times the weight of the states around `y`.

Full statement: for all states that runs reach. Missing: diagrams of order 0 with an instantaneous line and what comes after them, as for
`C86_stationary_partial`. -/
theorem C89_stationary_partial {c : Chain Q F} (hP : c.P.Wf) (hf : PosFactors c.P) {X : Finset (Diag Q F)} {y : Diag Q F} (hX : Around c.P X y)
    (tail : Words) :
    |∑ x ∈ X, stateWeight c.P x * runMean { c with d := x } tail 1 (isDiag y) - stateWeight c.P y| ≤
      wordBias c.P * ∑ x ∈ X, stateWeight c.P x := by
  rw [← (C86_stationary_partial hP hf hX).2, ← Finset.sum_sub_distrib, Finset.mul_sum]
  refine le_trans (Finset.abs_sum_le_sum_abs _ _) (Finset.sum_le_sum fun x hx => ?_)
  have hi := (hX.good x hx).inv
  have hw := (stateWeight_pos hP hf hi).le
  rw [← mul_sub, abs_mul, abs_of_nonneg hw, mul_comm]
  exact mul_le_mul_of_nonneg_right (C89_step (c := { c with d := x }) hP hi y tail) hw

end

/-! ### Concrete cases -/

/-- Three values are not equally likely, two directions are. -/
example : ((Finset.univ.filter fun w : Word => irn w 0 2 = .ok 0).card = 1431655766 ∧
    (Finset.univ.filter fun w : Word => irn w 0 2 = .ok 2).card = 1431655765) ∧
    (Finset.univ.filter fun w : Word => irn w 0 1 = .ok 0).card = (Finset.univ.filter fun w : Word => irn w 0 1 = .ok 1).card :=
  ⟨⟨C89_choice (by norm_num) (by norm_num), C89_choice (by norm_num) (by norm_num)⟩,
    (C89_even (by norm_num)).2 (by decide) 0 1 (by norm_num) (by norm_num) (by norm_num) (by norm_num)⟩

/-- A third of the words, rounded up, give a number below `1/3`. -/
example : (1 / 3 : ℚ) ≤ ((Finset.univ.filter fun w : Word => urn ℚ w < 1 / 3).card : ℚ) / 4294967296 :=
  (C89_number (1 / 3) (by norm_num) (by norm_num)).1

/-- The order of the diagram, as a quantity with values 0 and 1. -/
def isOrder (n : ℕ) (d : Diag ℚ ℚ) : ℚ := if d.order = n then 1 else 0

theorem isOrder_cellFree (P : Params ℚ ℚ) (n : ℕ) : CellFree P (isOrder n) := by
  refine ⟨fun d d' _ _ s => ?_, fun d => ?_, fun d => ?_⟩
  · obtain ⟨_, _, _, s⟩ := s
    unfold isOrder
    rw [s.order]
  · unfold isOrder
    split_ifs <;> norm_num
  · unfold isOrder
    split_ifs <;> norm_num

/-- The hypotheses are met by a diagram of order 3 with worm and instantaneous line. The probability to be at order 2 after 1000 steps
differs from that of the Markov chain by less than half a percent. -/
example (tail : Words) : ∃ c : Chain ℚ ℚ, c.P.Wf ∧ Inv c.P c.d ∧ c.d.order = 3 ∧ c.d.worm.exist = true ∧
    |runMean c tail 1000 (isOrder 2) - stepsMean c.P (isOrder 2) 1000 c.d| < 1 / 200 := by
  obtain ⟨c, ec, hc⟩ := Res.test_ok (r := demoRun demoP [mkWorm 0 5, addInt 20 1, addDel 9 1])
    (f := fun c => c.d.order == 3 && c.d.worm.exist) (by decide +kernel)
  have hr := demoRun_reach ec
  obtain ⟨c0, e0, e3⟩ := bind_eq_ok ec
  obtain ⟨d, ed, e4⟩ := bind_eq_ok e0
  cases e4
  have hp : c.P = demoP := hop_P e3
  simp only [Bool.and_eq_true, beq_iff_eq] at hc
  obtain ⟨hw, hi⟩ := hr.inv demoP_wf demoP_start
  refine ⟨c, hw, hi, hc.1, hc.2, lt_of_le_of_lt (C89_steps hw hi (isOrder_cellFree _ 2) tail 1000) ?_⟩
  rw [hp]
  norm_num [wordBias, demoP]

end Feyn
