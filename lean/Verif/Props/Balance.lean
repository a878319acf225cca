import Verif.Spec.Balance
import Verif.Proof.Effect
import Verif.Props.Demo
import Verif.Props.Diagram

/-!
# Acceptance statistics (C62)
-/

namespace Feyn

set_option linter.unusedSectionVars false

section
variable {Q F : Type} [Field Q] [LinearOrder Q] [IsStrictOrderedRing Q] [Field F]

theorem hopOne_none {c c' : Chain Q F} {o : Words} (hs : selectOp c.P (urn Q (o 0)) = none) (h : hopOne c o = .ok c') :
    c' = { c with counter := c.counter + 1 } := by
  unfold hopOne at h
  rw [hs] at h
  exact (Res.ok.inj h).symm

theorem hopOne_some {c c' : Chain Q F} {o : Words} {op : Op} (hs : selectOp c.P (urn Q (o 0)) = some op) (h : hopOne c o = .ok c') :
    ∃ out, runOp c.P op (fun i => o (i + 1)) c.d = .ok out ∧ c' = c.book op out := by
  unfold hopOne at h
  rw [hs] at h
  dsimp only at h
  cases hr : runOp c.P op (fun i => o (i + 1)) c.d with
  | abort => rw [hr] at h; cases h
  | ub => rw [hr] at h; cases h
  | ok out => rw [hr] at h; exact ⟨out, rfl, (Res.ok.inj h).symm⟩

/-- Every run has a record of its calls. -/
theorem exists_trace (os : List Words) (c c' : Chain Q F) (h : hop c os = .ok c') : ∃ es, Trace c os es c' := by
  induction os generalizing c with
  | nil => cases h; exact ⟨[], .done _⟩
  | cons o os ih =>
    simp only [hop] at h
    cases h1 : hopOne c o with
    | abort => rw [h1] at h; cases h
    | ub => rw [h1] at h; cases h
    | ok c1 =>
      rw [h1] at h
      obtain ⟨es, he⟩ := ih c1 h
      cases hs : selectOp c.P (urn Q (o 0)) with
      | none => exact ⟨es, .idle hs h1 he⟩
      | some op =>
        obtain ⟨out, hr, -⟩ := hopOne_some hs h1
        exact ⟨_, .call hs hr h1 he⟩

/-- **C62**: the acceptance statistics are exact. Each call of an update is counted under the order that the diagram had when the call
was made; `Proposed` counts the calls that reached the acceptance test, `Accepted` those that were accepted. -/
theorem C62_counts {os : List Words} {c c' : Chain Q F} (h : hop c os = .ok c') :
    ∃ es, Trace c os es c' ∧ c'.counter = c.counter + os.length ∧ c'.P = c.P ∧
      (∀ op n, c'.proposed op n = c.proposed op n + tried es op n) ∧
      (∀ op n, c'.accepted op n = c.accepted op n + succeeded es op n) := by
  obtain ⟨es, ht⟩ := exists_trace os c c' h
  refine ⟨es, ht, ?_⟩
  clear h
  induction ht with
  | done c => simp [tried, succeeded]
  | @idle c c1 c2 o os es hs h1 _ ih =>
    rw [hopOne_none hs h1] at ih
    obtain ⟨a, b, e, f⟩ := ih
    exact ⟨by simpa [add_assoc, add_comm 1] using a, b, e, f⟩
  | @call c c1 c2 o os es op out hs hr h1 _ ih =>
    obtain ⟨out', hr', e⟩ := hopOne_some hs h1
    rw [hr] at hr'
    cases hr'
    subst e
    obtain ⟨a, b, e, f⟩ := ih
    refine ⟨by simpa [Chain.book, add_assoc, add_comm 1] using a, b, fun op' n => ?_, fun op' n => ?_⟩
    · rw [e]
      unfold tried
      rw [List.countP_cons]
      by_cases ht : out.tag = .skip
      · simp [Chain.book, ht]
      · by_cases hn : op' = op ∧ n = c.d.order
        · obtain ⟨rfl, rfl⟩ := hn
          simp [Chain.book, ht, bump]
          omega
        · have hn' : ¬ (op = op' ∧ c.d.order = n ∧ out.tag ≠ .skip) := fun q => hn ⟨q.1.symm, q.2.1.symm⟩
          simp only [Chain.book, ht, bump, hn, if_false, hn', decide_false, Bool.false_eq_true, Nat.add_zero]
    · rw [f]
      unfold succeeded
      rw [List.countP_cons]
      by_cases ht : out.tag = .accept
      · by_cases hn : op' = op ∧ n = c.d.order
        · obtain ⟨rfl, rfl⟩ := hn
          simp [Chain.book, ht, bump]
          omega
        · have hn' : ¬ (op = op' ∧ c.d.order = n ∧ out.tag = .accept) := fun q => hn ⟨q.1.symm, q.2.1.symm⟩
          rw [decide_eq_false hn']
          simp only [Chain.book, ht, bump, hn, if_false, if_true, Bool.false_eq_true, Nat.add_zero]
      · simp [Chain.book, ht]

/-- **C62**: no update is accepted more often than it is proposed, and at most one is proposed per step. -/
theorem C62_bounds {os : List Words} {c c' : Chain Q F} (h : hop c os = .ok c') (op : Op) (n : ℕ) :
    c'.accepted op n + c.proposed op n ≤ c.accepted op n + c'.proposed op n ∧
      c'.proposed op n ≤ c.proposed op n + os.length := by
  obtain ⟨es, ht, -, -, h1, h2⟩ := C62_counts h
  rw [h1, h2]
  have h3 : succeeded es op n ≤ tried es op n :=
    List.countP_mono_left fun e _ => by
      simp only [decide_eq_true_eq]
      rintro ⟨a, b, e⟩
      exact ⟨a, b, by rw [e]; decide⟩
  have h4 : es.length ≤ os.length := by
    clear h h1 h2 h3
    induction ht with
    | done => exact le_rfl
    | idle _ _ _ ih => exact le_trans ih (Nat.le_succ _)
    | call _ _ _ _ ih => exact Nat.succ_le_succ ih
  have h5 : tried es op n ≤ es.length := List.countP_le_length
  omega

/-- A conserved balance of one step is a conserved balance of a run. -/
theorem hop_balance {P₀ : Params Q F} (f : Chain Q F → ℤ)
    (hf : ∀ c c' o, Reach P₀ c → hopOne c o = .ok c' → f c' = f c) {os : List Words} {c c' : Chain Q F}
    (hr : Reach P₀ c) (h : hop c os = .ok c') : f c' = f c := by
  induction os generalizing c with
  | nil => cases h; rfl
  | cons o os ih =>
    simp only [hop] at h
    cases h1 : hopOne c o with
    | abort => rw [h1] at h; cases h
    | ub => rw [h1] at h; cases h
    | ok c1 =>
      rw [h1] at h
      rw [ih (.hop c c1 o hr h1) h, hf c c1 o hr h1]

/-- One step either changes nothing that is counted, or is the acceptance of one update. -/
theorem hopOne_sectors {c c' : Chain Q F} {o : Words} (h : hopOne c o = .ok c') :
    (c'.accepted = c.accepted ∧ c'.d.order = c.d.order ∧ c'.d.worm.exist = c.d.worm.exist ∧ c'.d.measG = c.d.measG ∧
      c'.d.hasGamma = c.d.hasGamma) ∨
    ∃ op : Op, op.Can c.P c.d ∧ c'.accepted = bump c.accepted op c.d.order ∧ c'.d.order = op.newOrder c.d.order ∧
      c'.d.worm.exist = op.newWorm c.d.worm.exist ∧ c'.d.measG = op.newMeasG c.d.measG ∧
      c'.d.hasGamma = op.newGamma c.d.hasGamma := by
  cases hs : selectOp c.P (urn Q (o 0)) with
  | none => rw [hopOne_none hs h]; exact .inl ⟨rfl, rfl, rfl, rfl, rfl⟩
  | some op =>
    obtain ⟨out, hr, e⟩ := hopOne_some hs h
    obtain ⟨h1, h2, h3⟩ := runOp_effect c.P op (fun i => o (i + 1)) c.d out hr
    rw [e]
    by_cases ht : out.tag = .accept
    · obtain ⟨a, b, g, i⟩ := h3 ht
      exact .inr ⟨op, h2 (by rw [ht]; decide), by simp [Chain.book, ht], a, b, g, i⟩
    · refine .inl ⟨by simp [Chain.book, ht], ?_⟩
      show out.d.order = _ ∧ out.d.worm.exist = _ ∧ out.d.measG = _ ∧ out.d.hasGamma = _
      rcases h1 ht with q | ⟨-, x, q⟩ <;> rw [q] <;> exact ⟨rfl, rfl, rfl, rfl⟩

/-- **C62**: the statistics of a run balance. At each order the number of accepted additions from `n` to `n + 1` differs from the number of accepted
removals from `n + 1` to `n` by what the run changed: at most one. -/
theorem C62_order {P₀ : Params Q F} {os : List Words} {c c' : Chain Q F} (hr : Reach P₀ c) (h : hop c os = .ok c') (n : ℕ) :
    (ups c'.accepted n - ups c.accepted n) - (downs c'.accepted n - downs c.accepted n) =
      asInt (n < c'.d.order) - asInt (n < c.d.order) := by
  have key := hop_balance (P₀ := P₀) (fun c => ups c.accepted n - downs c.accepted n - asInt (n < c.d.order)) ?_ hr h
  · linarith
  · intro c c' o _ h
    rcases hopOne_sectors h with ⟨a, b, -⟩ | ⟨op, hc, a, b, -⟩
    · simp only [a, b]
    · simp only [a]
      have hf := hc.1
      cases op <;> simp only [Op.fromOrder] at hf <;> simp only [Op.newOrder] at b <;>
        simp only [ups, downs, asInt, bump, reduceCtorEq, false_and, if_false, true_and, decide_eq_true_eq] <;>
        split_ifs <;> push_cast <;> omega

theorem total_bump (acc : Op → ℕ → ℕ) (m n : ℕ) (op op' : Op) (hn : n ≤ m) :
    total (bump acc op n) m op' = total acc m op' + asInt (op' = op) := by
  unfold total bump
  by_cases he : op' = op
  · subst he
    have : ∀ k ∈ Finset.range (m + 1), (((if op' = op' ∧ k = n then acc op' k + 1 else acc op' k : ℕ)) : ℤ) =
        (acc op' k : ℤ) + if k = n then 1 else 0 := by
      intro k _
      by_cases hk : k = n <;> simp [hk]
    rw [Finset.sum_congr rfl this, Finset.sum_add_distrib, Finset.sum_ite_eq' (Finset.range (m + 1)) n]
    simp [Nat.lt_succ_of_le hn, asInt]
  · simp [he, asInt]

/-- If a pair of updates alone changes `g`, and by one, then their numbers of acceptances balance. -/
theorem sector_balance {P₀ : Params Q F} (hP : P₀.Wf) (hS : StartOk P₀) {os : List Words} {c c' : Chain Q F} (hr : Reach P₀ c)
    (h : hop c os = .ok c') (a b : Op) (g : Diag Q F → ℤ)
    (hg : ∀ (op : Op) (P : Params Q F) (d d' : Diag Q F), op.Can P d → d'.worm.exist = op.newWorm d.worm.exist →
      d'.measG = op.newMeasG d.measG → d'.hasGamma = op.newGamma d.hasGamma → g d' - g d = asInt (a = op) - asInt (b = op))
    (hg' : ∀ d d' : Diag Q F, d'.worm.exist = d.worm.exist → d'.measG = d.measG → d'.hasGamma = d.hasGamma → g d' = g d) :
    (total c'.accepted c.P.maxOrd a - total c.accepted c.P.maxOrd a) -
      (total c'.accepted c.P.maxOrd b - total c.accepted c.P.maxOrd b) = g c'.d - g c.d := by
  have hm : c'.P = c.P := by
    obtain ⟨_, -, -, e, -⟩ := C62_counts h
    exact e
  have key := hop_balance (P₀ := P₀) (fun c => total c.accepted c.P.maxOrd a - total c.accepted c.P.maxOrd b - g c.d) ?_ hr h
  · rw [hm] at key
    linarith
  · intro c1 c2 o h1 h2
    have hb := (C10_order_bounds hP hS h1).1
    have hp : c2.P = c1.P := by
      have : hop c1 [o] = .ok c2 := by simp [hop, h2]
      obtain ⟨_, -, -, e, -⟩ := C62_counts this
      exact e
    simp only [hp]
    rcases hopOne_sectors h2 with ⟨e, -, x⟩ | ⟨op, hc, e, -, x⟩
    · rw [e, hg' c1.d c2.d x.1 x.2.1 x.2.2]
    · have := hg op c1.P c1.d c2.d hc x.1 x.2.1 x.2.2
      rw [e, total_bump _ _ _ _ _ hb, total_bump _ _ _ _ _ hb]
      linarith

/-- **C62**: created minus deleted worms is the change of the number of worms. -/
theorem C62_worms {P₀ : Params Q F} (hP : P₀.Wf) (hS : StartOk P₀) {os : List Words} {c c' : Chain Q F} (hr : Reach P₀ c)
    (h : hop c os = .ok c') :
    (total c'.accepted c.P.maxOrd .createWorm - total c.accepted c.P.maxOrd .createWorm) -
        (total c'.accepted c.P.maxOrd .deleteWorm - total c.accepted c.P.maxOrd .deleteWorm) =
      asInt (c'.d.worm.exist) - asInt (c.d.worm.exist) := by
  refine sector_balance hP hS hr h _ _ (fun d => asInt (d.worm.exist)) ?_ ?_
  · intro op P d d' hc e _ _
    have hw := hc.2.1
    simp only [e]
    cases op <;> simp_all [asInt, Op.newWorm, Op.needWorm]
  · intro d d' e _ _; simp only [e]

/-- **C62**: changes of the measuring line from `W` to `G` minus changes from `G` to `W`. -/
theorem C62_measuring {P₀ : Params Q F} (hP : P₀.Wf) (hS : StartOk P₀) {os : List Words} {c c' : Chain Q F} (hr : Reach P₀ c)
    (h : hop c os = .ok c') :
    (total c'.accepted c.P.maxOrd .w2g - total c.accepted c.P.maxOrd .w2g) -
        (total c'.accepted c.P.maxOrd .g2w - total c.accepted c.P.maxOrd .g2w) =
      asInt (c'.d.measG) - asInt (c.d.measG) := by
  refine sector_balance hP hS hr h _ _ (fun d => asInt (d.measG)) ?_ ?_
  · intro op P d d' hc _ e _
    have hw := hc.2.2.1
    simp only [e]
    cases op <;> simp_all [asInt, Op.newMeasG, Op.fromMeasG] <;> cases d.measG <;> rfl
  · intro d d' _ e _; simp only [e]

/-- **C62**: entries into minus exits from each of the two three-point sectors. -/
theorem C62_gammas {P₀ : Params Q F} (hP : P₀.Wf) (hS : StartOk P₀) {os : List Words} {c c' : Chain Q F} (hr : Reach P₀ c)
    (h : hop c os = .ok c') :
    ((total c'.accepted c.P.maxOrd .toGGGammaG - total c.accepted c.P.maxOrd .toGGGammaG) -
        (total c'.accepted c.P.maxOrd .fromGGGammaG - total c.accepted c.P.maxOrd .fromGGGammaG) =
      asInt (c'.d.hasGamma == 1) - asInt (c.d.hasGamma == 1)) ∧
    ((total c'.accepted c.P.maxOrd .toWWGammaW - total c.accepted c.P.maxOrd .toWWGammaW) -
        (total c'.accepted c.P.maxOrd .fromWWGammaW - total c.accepted c.P.maxOrd .fromWWGammaW) =
      asInt (c'.d.hasGamma == 2) - asInt (c.d.hasGamma == 2)) := by
  constructor
  · refine sector_balance hP hS hr h _ _ (fun d => asInt (d.hasGamma == 1)) ?_ ?_
    · intro op P d d' hc _ _ e
      have hw := hc.2.2.2
      simp only [e]
      cases op <;> simp_all [asInt, Op.newGamma, Op.fromGamma]
    · intro d d' _ _ e; simp only [e]
  · refine sector_balance hP hS hr h _ _ (fun d => asInt (d.hasGamma == 2)) ?_ ?_
    · intro op P d d' hc _ _ e
      have hw := hc.2.2.2
      simp only [e]
      cases op <;> simp_all [asInt, Op.newGamma, Op.fromGamma]
    · intro d d' _ _ e; simp only [e]

end

/-- A run with two accepted additions, counted at orders 1 and 2, that ends at order 3 with a worm. -/
example : ∃ c c' : Chain ℚ ℚ, Reach demoP c ∧ demoP.Wf ∧ StartOk demoP ∧ hop c demoOps = .ok c' ∧
    ups c'.accepted 1 - ups c.accepted 1 = 1 ∧ ups c'.accepted 2 - ups c.accepted 2 = 1 ∧ c'.d.order = 3 ∧
    total c'.accepted 3 .createWorm = 1 ∧ c'.d.worm.exist = true := by
  obtain ⟨c, e, -⟩ := Res.test_ok (r := startChain demoP) (f := fun _ => true) (by decide +kernel)
  have hc : Reach demoP c := demoRun_reach (os := []) (by unfold demoRun; rw [e]; rfl)
  have hh : (startChain demoP >>= fun c => hop c demoOps).test
      (fun c' => decide (ups c'.accepted 1 = 1 ∧ ups c'.accepted 2 = 1 ∧ c'.d.order = 3 ∧
        total c'.accepted 3 .createWorm = 1 ∧ c'.d.worm.exist = true)) = true := by decide +kernel
  have h0 : (startChain demoP).test (fun c => decide (ups c.accepted 1 = 0 ∧ ups c.accepted 2 = 0)) = true := by decide +kernel
  rw [e] at hh h0
  obtain ⟨c', e', hf⟩ := Res.test_ok hh
  simp only [Res.test, decide_eq_true_eq] at h0 hf
  exact ⟨c, c', hc, demoP_wf, demoP_start, e', by omega, by omega, hf.2.2.1, hf.2.2.2.1, hf.2.2.2.2⟩

end Feyn
