import Verif.Proof.UpdateReport

/-!
# The report on the updates (C99)
-/

namespace Feyn

set_option linter.unusedSectionVars false

section
variable {Q F : Type} [Field Q] [LinearOrder Q] [IsStrictOrderedRing Q] [Field F]

/-- What one step does to the tables and to the numbers of lines. -/
private theorem hopOne_tables {P₀ : Params Q F} (hP : P₀.Wf) (hS : StartOk P₀) {c c' : Chain Q F} {o : Words} (hr : Reach P₀ c) (h : hopOne c o = .ok c') :
    c'.P = c.P ∧ c'.counter = c.counter + 1 ∧
    ((c'.proposed = c.proposed ∧ c'.accepted = c.accepted ∧ c'.d.order = c.d.order ∧ c'.d.measG = c.d.measG ∧ deltaLines c'.d = deltaLines c.d) ∨
    ∃ op : Op, op.Can c.P c.d ∧ c'.proposed = bump c.proposed op c.d.order ∧
      ((c'.accepted = c.accepted ∧ c'.d.order = c.d.order ∧ c'.d.measG = c.d.measG ∧ deltaLines c'.d = deltaLines c.d) ∨
        (c'.accepted = bump c.accepted op c.d.order ∧ c'.d.order = op.newOrder c.d.order ∧ c'.d.measG = op.newMeasG c.d.measG ∧
          (deltaLines c'.d : ℤ) = deltaLines c.d + op.deltaStep))) := by
  cases hs : selectOp c.P (urn Q (o 0)) with
  | none => rw [hopOne_none hs h]; exact ⟨rfl, rfl, .inl ⟨rfl, rfl, rfl, rfl, rfl⟩⟩
  | some op =>
    obtain ⟨out, hro, e⟩ := hopOne_some hs h
    obtain ⟨h1, h2, h3⟩ := runOp_effect c.P op (fun i => o (i + 1)) c.d out hro
    obtain ⟨hw, hi⟩ := hr.inv hP hS
    have h4 := runOp_delta hw hi op (fun i => o (i + 1)) out hro
    rw [e]
    refine ⟨rfl, rfl, ?_⟩
    cases ht : out.tag with
    | accept =>
      obtain ⟨a, b, g, i⟩ := h3 ht
      exact .inr ⟨op, h2 (by rw [ht]; decide), by simp [Chain.book, ht], .inr ⟨by simp [Chain.book, ht], a, g, h4 ht⟩⟩
    | skip =>
      refine .inl ⟨by simp [Chain.book, ht], by simp [Chain.book, ht], ?_⟩
      show out.d.order = _ ∧ out.d.measG = _ ∧ deltaLines out.d = _
      rcases h1 (by rw [ht]; decide) with q | ⟨-, x, q⟩ <;> rw [q] <;> exact ⟨rfl, rfl, rfl⟩
    | reject =>
      refine .inr ⟨op, h2 (by rw [ht]; decide), by simp [Chain.book, ht], .inl ⟨by simp [Chain.book, ht], ?_⟩⟩
      show out.d.order = _ ∧ out.d.measG = _ ∧ deltaLines out.d = _
      rcases h1 (by rw [ht]; decide) with q | ⟨-, x, q⟩ <;> rw [q] <;> exact ⟨rfl, rfl, rfl⟩

/-- Where the tables can be different from zero. -/
private structure Cells (c : Chain Q F) : Prop where
  le : ∀ op n, c.accepted op n ≤ c.proposed op n
  top : ∀ op n, c.P.maxOrd < n → c.proposed op n = 0
  add : ∀ n, (n = 0 ∨ c.P.maxOrd ≤ n) → c.accepted .addInteraction n = 0 ∧ c.accepted .addDelta n = 0
  del : ∀ n, n ≤ 1 → c.accepted .delInteraction n = 0 ∧ c.accepted .delDelta n = 0
  calls : ∀ K, c.P.maxOrd ≤ K → ((reportedOps true).map (total c.proposed K)).sum ≤ c.counter

private theorem Cells.zero (P : Params Q F) (d : Diag Q F) (n : ℕ) : Cells (⟨P, d, n, fun _ _ => 0, fun _ _ => 0⟩ : Chain Q F) :=
  ⟨fun _ _ => le_rfl, fun _ _ _ => rfl, fun _ _ => ⟨rfl, rfl⟩, fun _ _ => ⟨rfl, rfl⟩, fun K _ => by simp [total, reportedOps]⟩

private theorem bump_other {f : Op → ℕ → ℕ} {op op' : Op} {n n' : ℕ} (h : ¬ (op' = op ∧ n' = n)) : bump f op n op' n' = f op' n' := if_neg h

private theorem cells {P₀ : Params Q F} (hP : P₀.Wf) (hS : StartOk P₀) {c : Chain Q F} (hr : Reach P₀ c) : Cells c := by
  induction hr with
  | start d₀ d _ _ => exact Cells.zero _ _ _
  | restart c P' dict d₀ d' n _ _ _ _ _ _ _ _ => exact Cells.zero _ _ _
  | reweight c P' _ hm ih =>
    obtain ⟨a, b, e, f, g, -, rfl⟩ := hm
    exact ⟨ih.le, ih.top, ih.add, ih.del, ih.calls⟩
  | anneal c P' d' _ ha _ _ _ ih =>
    have := ha.maxOrd
    exact ⟨ih.le, fun op n h => ih.top op n (by dsimp only at h; omega), fun n h => ih.add n (by dsimp only at h; omega), ih.del, fun K h => ih.calls K (by dsimp only at h; omega)⟩
  | hop c c' o hr h ih =>
    obtain ⟨e1, e2, q⟩ := hopOne_tables hP hS hr h
    have hb := (C10_order_bounds hP hS hr).1
    rcases q with ⟨p, a, -⟩ | ⟨op, hc, p, q⟩
    · exact ⟨by rw [p, a]; exact ih.le, by rw [p, e1]; exact ih.top, by rw [a, e1]; exact ih.add, by rw [a]; exact ih.del,
        fun K hK => by rw [p, e2]; have := ih.calls K (by rw [← e1]; exact hK); push_cast; omega⟩
    have hcalls : ∀ K, c'.P.maxOrd ≤ K → ((reportedOps true).map (total c'.proposed K)).sum ≤ c'.counter := by
      intro K hK
      rw [e1] at hK
      have h0 := ih.calls K hK
      rw [p, e2]
      have : ∀ op', total (bump c.proposed op c.d.order) K op' = total c.proposed K op' + asInt (op' = op) := fun op' => total_bump _ _ _ _ _ (le_trans hb hK)
      rw [show (reportedOps true).map (total (bump c.proposed op c.d.order) K) = (reportedOps true).map fun op' => total c.proposed K op' + asInt (op' = op) from
        List.map_congr_left fun op' _ => this op', List.sum_map_add]
      have h1 : ((reportedOps true).map fun op' => asInt (op' = op)).sum = 1 := by cases op <;> decide
      rw [h1]
      push_cast
      exact Int.add_le_add_right h0 1
    have htop : ∀ op' n, c'.P.maxOrd < n → c'.proposed op' n = 0 := by
      intro op' n hn
      rw [e1] at hn
      rw [p, bump_other (by rintro ⟨-, rfl⟩; omega)]
      exact ih.top op' n hn
    have hf := hc.1
    rcases q with ⟨a, -⟩ | ⟨a, -⟩
    · refine ⟨fun op' n => ?_, htop, by rw [a, e1]; exact ih.add, by rw [a]; exact ih.del, hcalls⟩
      rw [a, p]
      have := ih.le op' n
      unfold bump
      split_ifs <;> omega
    · refine ⟨fun op' n => ?_, htop, fun n hn => ?_, fun n hn => ?_, hcalls⟩
      · rw [a, p]
        have := ih.le op' n
        unfold bump
        split_ifs <;> omega
      · rw [e1] at hn
        rw [a, bump_other, bump_other]
        · exact ih.add n hn
        · rintro ⟨rfl, rfl⟩; simp only [Op.fromOrder] at hf; omega
        · rintro ⟨rfl, rfl⟩; simp only [Op.fromOrder] at hf; omega
      · rw [a, bump_other, bump_other]
        · exact ih.del n hn
        · rintro ⟨rfl, rfl⟩; simp only [Op.fromOrder] at hf; omega
        · rintro ⟨rfl, rfl⟩; simp only [Op.fromOrder] at hf; omega

/-- The numbers of lines minus the balances of the updates that change them. -/
private def lineLaw (K : ℕ) (c : Chain Q F) : ℤ :=
  total c.accepted K .addInteraction - total c.accepted K .delInteraction + (total c.accepted K .addDelta - total c.accepted K .delDelta) - max c.d.order 1

private def deltaLaw (K : ℕ) (c : Chain Q F) : ℤ :=
  total c.accepted K .addDelta - total c.accepted K .delDelta + (total c.accepted K .cont2delta - total c.accepted K .delta2cont) - deltaLines c.d

private def measLaw (K : ℕ) (c : Chain Q F) : ℤ := total c.accepted K .w2g - total c.accepted K .g2w - asInt c.d.measG

private theorem laws_step {P₀ : Params Q F} (hP : P₀.Wf) (hS : StartOk P₀) {c c' : Chain Q F} {o : Words} (hr : Reach P₀ c) (h : hopOne c o = .ok c') {K : ℕ} (hK : c.P.maxOrd ≤ K) :
    lineLaw K c' = lineLaw K c ∧ deltaLaw K c' = deltaLaw K c ∧ measLaw K c' = measLaw K c := by
  obtain ⟨-, -, q⟩ := hopOne_tables hP hS hr h
  have hb := le_trans (C10_order_bounds hP hS hr).1 hK
  have same : (c'.accepted = c.accepted ∧ c'.d.order = c.d.order ∧ c'.d.measG = c.d.measG ∧ deltaLines c'.d = deltaLines c.d) →
      lineLaw K c' = lineLaw K c ∧ deltaLaw K c' = deltaLaw K c ∧ measLaw K c' = measLaw K c := by
    rintro ⟨a, b, g, e⟩
    simp only [lineLaw, deltaLaw, measLaw, a, b, g, e, and_self]
  rcases q with ⟨-, q⟩ | ⟨op, hc, -, q | ⟨a, b, g, e⟩⟩
  · exact same q
  · exact same q
  · have hf := hc.1
    have hm := hc.2.2.1
    simp only [lineLaw, deltaLaw, measLaw, a, b, g, e, total_bump _ _ _ _ _ hb]
    clear a b g e same
    cases op <;> simp only [Op.fromOrder] at hf <;> simp only [Op.fromMeasG] at hm <;>
      simp only [Op.newOrder, Op.newMeasG, Op.deltaStep, asInt, reduceCtorEq, decide_false, decide_true, Bool.false_eq_true, if_false, if_true] <;> refine ⟨?_, ?_, ?_⟩ <;>
      (try simp only [hm, Bool.false_eq_true, if_false, if_true]) <;> (first | omega | (simp only [add_zero]; cases c.d.measG <;> rfl))

private theorem deltaLines_le {P₀ : Params Q F} (hP : P₀.Wf) (hS : StartOk P₀) {c : Chain Q F} (hr : Reach P₀ c) :
    deltaLines c.d ≤ max c.d.order 1 ∧ max c.d.order 1 ≤ c.P.maxOrd := by
  have h := C10_order_bounds hP hS hr
  have hi := (hr.inv hP hS).2.count
  have h1 := hi.n_le
  have h2 := hi.n_pos
  refine ⟨?_, by omega⟩
  rw [← h.2]
  exact Finset.card_filter_le _ _

private theorem laws {P₀ : Params Q F} (hP : P₀.Wf) (hS : StartOk P₀) {c : Chain Q F} (hr : Reach P₀ c) :
    ∃ (l₀ e₀ : ℕ) (m₀ : Bool), 1 ≤ l₀ ∧ l₀ ≤ c.P.maxOrd ∧ e₀ ≤ l₀ ∧ ∀ K, c.P.maxOrd ≤ K → lineLaw K c = -l₀ ∧ deltaLaw K c = -e₀ ∧ measLaw K c = -asInt m₀ := by
  have zero : ∀ (P : Params Q F) (d : Diag Q F) (n : ℕ), Reach P₀ (⟨P, d, n, fun _ _ => 0, fun _ _ => 0⟩ : Chain Q F) →
      ∃ (l₀ e₀ : ℕ) (m₀ : Bool), 1 ≤ l₀ ∧ l₀ ≤ P.maxOrd ∧ e₀ ≤ l₀ ∧ ∀ K, P.maxOrd ≤ K → lineLaw K (⟨P, d, n, fun _ _ => 0, fun _ _ => 0⟩ : Chain Q F) = -l₀ ∧
        deltaLaw K (⟨P, d, n, fun _ _ => 0, fun _ _ => 0⟩ : Chain Q F) = -e₀ ∧ measLaw K (⟨P, d, n, fun _ _ => 0, fun _ _ => 0⟩ : Chain Q F) = -asInt m₀ := by
    intro P d n h
    obtain ⟨h1, h2⟩ := deltaLines_le hP hS h
    refine ⟨max d.order 1, deltaLines d, d.measG, le_max_right _ _, h2, h1, fun K _ => ?_⟩
    simp [lineLaw, deltaLaw, measLaw, total]
  induction hr with
  | start d₀ d hf e => exact zero _ _ _ (.start d₀ d hf e)
  | restart c P' dict d₀ d' n hr ha hγ es h0 el hn _ => exact zero _ _ _ (.restart c P' dict d₀ d' n hr ha hγ es h0 el hn)
  | reweight c P' _ hm ih =>
    obtain ⟨a, b, e, f, g, -, rfl⟩ := hm
    exact ih
  | anneal c P' d' hr ha hs e hn ih =>
    obtain ⟨l₀, e₀, m₀, h1, h2, h3, h4⟩ := ih
    have hm := ha.maxOrd
    obtain rfl := fixDiagram_fixed (hr.inv hP hS).2 e
    refine ⟨l₀, e₀, m₀, h1, le_trans h2 hm, h3, fun K hK => ?_⟩
    have hd : deltaLines (fixed P' c.d) = deltaLines c.d := rfl
    have q := h4 K (le_trans hm hK)
    have ho : max (fixed P' c.d).order 1 = max c.d.order 1 := by
      show max c.d.W.avail 1 = _
      have hi := (hr.inv hP hS).2.count
      have h5 := hi.order
      have h6 := hi.n_pos
      omega
    unfold lineLaw deltaLaw measLaw at q ⊢
    dsimp only
    rw [hd, ho]
    exact q
  | hop c c' o hr h ih =>
    obtain ⟨l₀, e₀, m₀, h1, h2, h3, h4⟩ := ih
    have e1 := (hopOne_tables hP hS hr h).1
    refine ⟨l₀, e₀, m₀, h1, by rw [e1]; exact h2, h3, fun K hK => ?_⟩
    rw [e1] at hK
    obtain ⟨a, b, g⟩ := laws_step hP hS hr h hK
    rw [a, b, g]
    exact h4 K hK

/-- **C99**: the lines on one update. A line for an order is printed exactly if the update was proposed at that order; it shows the numbers of proposals and acceptances and their ratio. The
summation shows the numbers for all orders together. No ratio is outside of [0, 1] or has the denominator zero. -/
theorem C99_update {P₀ : Params Q F} (hP : P₀.Wf) (hS : StartOk P₀) {c : Chain Q F} (hr : Reach P₀ c) (op : Op) {K a b : ℕ} (hK : c.P.maxOrd < K)
    (ha : a = ∑ n ∈ Finset.range K, c.proposed op n) (hb : b = ∑ n ∈ Finset.range K, c.accepted op n) :
    (∀ l, l ∈ updateReport c.P.maxOrd c.proposed c.accepted op ↔
      (∃ n, 0 < c.proposed op n ∧ l = ⟨some n, c.proposed op n, c.accepted op n, (c.accepted op n : ℝ) / c.proposed op n⟩) ∨ (0 < a ∧ l = ⟨none, a, b, (b : ℝ) / a⟩)) ∧
      ∀ l ∈ updateReport c.P.maxOrd c.proposed c.accepted op, 0 < l.first ∧ 0 ≤ l.ratio ∧ l.ratio ≤ 1 := by
  have hc := cells hP hS hr
  have hsum : ∀ f : ℕ → ℕ, (∀ n, c.P.maxOrd < n → f n = 0) → ∑ n ∈ Finset.range K, f n = ∑ n ∈ Finset.range (c.P.maxOrd + 1), f n := by
    intro f hf
    refine (Finset.sum_subset (Finset.range_subset_range.2 hK) fun n _ hn => hf n ?_).symm
    rw [Finset.mem_range] at hn
    omega
  have htop : ∀ n, c.P.maxOrd < n → c.accepted op n = 0 := fun n hn => by have := hc.le op n; have := hc.top op n hn; omega
  obtain ⟨s1, s2⟩ := update_sums (ord := c.P.maxOrd) op (hc.le op)
  have key : ∀ l, l ∈ updateReport c.P.maxOrd c.proposed c.accepted op ↔
      (∃ n, 0 < c.proposed op n ∧ l = ⟨some n, c.proposed op n, c.accepted op n, (c.accepted op n : ℝ) / c.proposed op n⟩) ∨ (0 < a ∧ l = ⟨none, a, b, (b : ℝ) / a⟩) := by
    intro l
    unfold updateReport
    rw [mem_reportLines _ _ _ (ha.trans ((hsum _ (hc.top op)).trans s1)) (hb.trans ((hsum _ htop).trans s2))]
    refine or_congr ⟨?_, ?_⟩ (by simp [Nat.pos_iff_ne_zero])
    · rintro ⟨p, hp, h1, rfl⟩
      obtain ⟨n, -, rfl⟩ := List.mem_map.1 hp
      exact ⟨n, by simpa [Nat.pos_iff_ne_zero] using h1, rfl⟩
    · rintro ⟨n, hn, rfl⟩
      refine ⟨(n, c.proposed op n, c.accepted op n), List.mem_map.2 ⟨n, List.mem_range.2 ?_, rfl⟩, by simpa [Nat.pos_iff_ne_zero] using hn, rfl⟩
      by_contra q
      have := hc.top op n (by omega)
      omega
  refine ⟨key, fun l hl => ?_⟩
  have fine : ∀ x y : ℕ, 0 < x → y ≤ x → (0 : ℝ) ≤ (y : ℝ) / x ∧ (y : ℝ) / x ≤ 1 := fun x y hx hy =>
    ⟨by positivity, (div_le_one (by exact_mod_cast hx)).2 (by exact_mod_cast hy)⟩
  rcases (key l).1 hl with ⟨n, hn, rfl⟩ | ⟨hn, rfl⟩
  · exact ⟨hn, fine _ _ hn (hc.le op n)⟩
  · refine ⟨hn, fine _ _ hn ?_⟩
    rw [ha, hb]
    exact Finset.sum_le_sum fun n _ => hc.le op n

/-- **C99**: the calls that are reported, for all updates together, are not more than the printed counter. -/
theorem C99_calls {P₀ : Params Q F} (hP : P₀.Wf) (hS : StartOk P₀) {c : Chain Q F} (hr : Reach P₀ c) :
    ((reportedOps true).map fun op => (summation (updateReport c.P.maxOrd c.proposed c.accepted op)).1).sum ≤ c.counter := by
  have hc := cells hP hS hr
  have h := hc.calls c.P.maxOrd le_rfl
  have e : ∀ op, ((summation (updateReport c.P.maxOrd c.proposed c.accepted op)).1 : ℤ) = total c.proposed c.P.maxOrd op := by
    intro op
    obtain ⟨s1, s2⟩ := update_sums (ord := c.P.maxOrd) op (hc.le op)
    unfold updateReport
    rw [summation_lines _ _ _ s1 s2]
    · simp [total]
    · intro q
      have q' : ∑ i ∈ Finset.range (c.P.maxOrd + 1), c.proposed op i = 0 := beq_iff_eq.1 q
      refine ⟨q', Nat.le_zero.1 ?_⟩
      rw [← q']
      exact Finset.sum_le_sum fun n _ => hc.le op n
  have : ((((reportedOps true).map fun op => (summation (updateReport c.P.maxOrd c.proposed c.accepted op)).1).sum : ℕ) : ℤ) ≤ c.counter := by
    rw [Nat.cast_list_sum, List.map_map]
    refine le_trans (le_of_eq ?_) h
    congr 1
    exact List.map_congr_left fun op _ => e op
  exact_mod_cast this

/-- **C99**: the lines on one pair. `Accepted` of the first update at order `n` is compared with `Accepted` of the second at the order to which the first update leads; a line is printed exactly
if one of the two is not zero. -/
theorem C99_pair {P₀ : Params Q F} (hP : P₀.Wf) (hS : StartOk P₀) {c : Chain Q F} (hr : Reach P₀ c) {p : Op × Op} (hp : p ∈ reportedPairs) (n a b : ℕ) (x : ℝ) :
    (⟨some n, a, b, x⟩ : ReportLine) ∈ balanceReport c.P.maxOrd c.accepted p.1 p.2 ↔
      a = c.accepted p.1 n ∧ b = c.accepted p.2 (p.1.newOrder n) ∧ 0 < a + b ∧ x = |(a : ℝ) - b| / √((a : ℝ) + b) := by
  have hc := cells hP hS hr
  have top : ∀ op m, c.P.maxOrd < m → c.accepted op m = 0 := fun op m hm => by have := hc.le op m; have := hc.top op m hm; omega
  unfold balanceReport
  rw [mem_reportLines _ _ _ rfl rfl]
  simp only [ReportLine.mk.injEq, reduceCtorEq, false_and, and_false, or_false]
  simp only [reportedPairs, List.mem_cons, List.not_mem_nil, or_false] at hp
  constructor
  · rintro ⟨q, hq, hz, h1, h2, h3, h4⟩
    obtain ⟨i, hi, e⟩ := List.mem_filterMap.1 hq
    have hz' : q.2.1 + q.2.2 ≠ 0 := by simpa using hz
    rcases hp with rfl | rfl | rfl | rfl <;> simp [balancePair] at e <;>
      obtain ⟨-, rfl⟩ := e <;> obtain rfl := Option.some.inj h1 <;> dsimp only at h2 h3 h4 hz' <;>
      refine ⟨h2, h3, by omega, by rw [h4, h2, h3]⟩
  · rintro ⟨rfl, rfl, hz, rfl⟩
    rcases hp with rfl | rfl | rfl | rfl <;> dsimp only [Op.newOrder] at hz ⊢
    · have hn : n < c.P.maxOrd := by
        by_contra q
        have h1 := (hc.add n (.inr (by omega))).1
        have h2 := top .delInteraction (n + 1) (by omega)
        omega
      exact ⟨(n, c.accepted .addInteraction n, c.accepted .delInteraction (n + 1)), List.mem_filterMap.2 ⟨n, List.mem_range.2 (by omega), by simp [balancePair, hn.ne]⟩,
        by simpa using fun h => (by omega : c.accepted .delInteraction (n + 1) ≠ 0), rfl, rfl, rfl, rfl⟩
    · have hn : n < c.P.maxOrd := by
        by_contra q
        have h1 := (hc.add n (.inr (by omega))).2
        have h2 := top .delDelta (n + 1) (by omega)
        omega
      exact ⟨(n, c.accepted .addDelta n, c.accepted .delDelta (n + 1)), List.mem_filterMap.2 ⟨n, List.mem_range.2 (by omega), by simp [balancePair, hn.ne]⟩,
        by simpa using fun h => (by omega : c.accepted .delDelta (n + 1) ≠ 0), rfl, rfl, rfl, rfl⟩
    · have hn : n ≤ c.P.maxOrd := by
        by_contra q
        have h1 := top .g2w n (by omega)
        have h2 := top .w2g n (by omega)
        omega
      exact ⟨(n, c.accepted .g2w n, c.accepted .w2g n), List.mem_filterMap.2 ⟨n, List.mem_range.2 (by omega), by simp [balancePair]⟩,
        by simpa using fun h => (by omega : c.accepted .w2g n ≠ 0), rfl, rfl, rfl, rfl⟩
    · have hn : n ≤ c.P.maxOrd := by
        by_contra q
        have h1 := top .cont2delta n (by omega)
        have h2 := top .delta2cont n (by omega)
        omega
      exact ⟨(n, c.accepted .cont2delta n, c.accepted .delta2cont n), List.mem_filterMap.2 ⟨n, List.mem_range.2 (by omega), by simp [balancePair]⟩,
        by simpa using fun h => (by omega : c.accepted .delta2cont n ≠ 0), rfl, rfl, rfl, rfl⟩

/-- **C99**: what is printed. The counter is the one of the chain; each update that the chain can call has one group of lines, with its proposals and acceptances; the pairs have their acceptances. -/
theorem C99_printed {P₀ : Params Q F} (hP : P₀.Wf) (hS : StartOk P₀) {c : Chain Q F} (hr : Reach P₀ c) :
    (printInfo c).1 = c.counter ∧ (∀ op, ((printInfo c).2.1.map Prod.fst).count op = if op.idx < numOps c.P then 1 else 0) ∧
      (∀ op ls, (op, ls) ∈ (printInfo c).2.1 → ∀ n a b x, (⟨some n, a, b, x⟩ : ReportLine) ∈ ls ↔ a = c.proposed op n ∧ b = c.accepted op n ∧ 0 < a ∧ x = (b : ℝ) / a) ∧
      ∀ p ls, (p, ls) ∈ (printInfo c).2.2 → ∀ n a b x, (⟨some n, a, b, x⟩ : ReportLine) ∈ ls ↔
        a = c.accepted p.1 n ∧ b = c.accepted p.2 (p.1.newOrder n) ∧ 0 < a + b ∧ x = |(a : ℝ) - b| / √((a : ℝ) + b) := by
  refine ⟨rfl, fun op => ?_, fun op ls h n a b x => ?_, fun p ls h n a b x => ?_⟩
  · have e : (printInfo c).2.1.map Prod.fst = reportedOps c.P.runGamma3 := by
      simp only [printInfo, List.map_map]
      exact List.map_id _
    rw [e, numOps]
    cases c.P.runGamma3 <;> cases op <;> decide
  · simp only [printInfo, List.mem_map, Prod.mk.injEq] at h
    obtain ⟨_, _, rfl, rfl⟩ := h
    rw [(C99_update hP hS hr _ (Nat.lt_succ_self _) rfl rfl).1]
    simp only [ReportLine.mk.injEq, reduceCtorEq, false_and, and_false, or_false, Option.some.injEq]
    constructor
    · rintro ⟨n, h0, rfl, rfl, rfl, rfl⟩
      exact ⟨rfl, rfl, h0, rfl⟩
    · rintro ⟨rfl, rfl, h0, rfl⟩
      exact ⟨n, h0, rfl, rfl, rfl, rfl⟩
  · simp only [printInfo, List.mem_map, Prod.mk.injEq] at h
    obtain ⟨_, hp, rfl, rfl⟩ := h
    exact C99_pair hP hS hr hp n a b x

/-- **C99**: the pair of jumps, which can be compared but is not printed: the jumps from order one to order zero with the jumps back. -/
theorem C99_jump (ord : ℕ) (accepted : Op → ℕ → ℕ) (n a b : ℕ) (x : ℝ) :
    (⟨some n, a, b, x⟩ : ReportLine) ∈ balanceReport ord accepted .toOrder0 .backToOrder1 ↔
      n = 0 ∧ a = accepted .toOrder0 1 ∧ b = accepted .backToOrder1 0 ∧ 0 < a + b ∧ x = |(a : ℝ) - b| / √((a : ℝ) + b) := by
  unfold balanceReport
  rw [mem_reportLines _ _ _ rfl rfl]
  simp only [ReportLine.mk.injEq, reduceCtorEq, false_and, and_false, or_false]
  constructor
  · rintro ⟨q, hq, hz, h1, h2, h3, h4⟩
    obtain ⟨i, hi, e⟩ := List.mem_filterMap.1 hq
    have hz' : q.2.1 + q.2.2 ≠ 0 := by simpa using hz
    simp [balancePair] at e
    obtain ⟨rfl, rfl⟩ := e
    obtain rfl := Option.some.inj h1
    dsimp only at h2 h3 h4 hz'
    exact ⟨rfl, h2, h3, by omega, by rw [h4, h2, h3]⟩
  · rintro ⟨rfl, rfl, rfl, hz, rfl⟩
    exact ⟨(0, accepted .toOrder0 1, accepted .backToOrder1 0), List.mem_filterMap.2 ⟨0, List.mem_range.2 (by omega), by simp [balancePair]⟩,
      by simpa using fun h => (by omega : accepted .backToOrder1 0 ≠ 0), rfl, rfl, rfl, rfl⟩

/-- The excesses as differences of totals. -/
private theorem excesses {P₀ : Params Q F} (hP : P₀.Wf) (hS : StartOk P₀) {c : Chain Q F} (hr : Reach P₀ c) :
    ∀ p ∈ reportedPairs, excessOf (balanceReport c.P.maxOrd c.accepted p.1 p.2) = total c.accepted c.P.maxOrd p.1 - total c.accepted c.P.maxOrd p.2 := by
  have hc := cells hP hS hr
  intro p hp
  simp only [reportedPairs, List.mem_cons, List.not_mem_nil, or_false] at hp
  rcases hp with rfl | rfl | rfl | rfl
  · exact balance_step (.inl ⟨rfl, rfl⟩) (hc.add _ (.inr le_rfl)).1 (hc.del 0 (by omega)).1
  · exact balance_step (.inr ⟨rfl, rfl⟩) (hc.add _ (.inr le_rfl)).2 (hc.del 0 (by omega)).2
  · exact balance_same (by decide) (by decide) (by decide)
  · exact balance_same (by decide) (by decide) (by decide)

/-- **C99**: what the summations of the four pairs can show. They begin at zero with a process. The first two together follow the number of interaction lines, the second and the fourth
together the number of instantaneous lines, and the third follows the kind of the measured line; so the first and the fourth agree up to the number of orders whatever the transition
probabilities are. -/
theorem C99_laws {P₀ : Params Q F} (hP : P₀.Wf) (hS : StartOk P₀) {c : Chain Q F} (hr : Reach P₀ c) {x1 x2 x3 x4 : ℤ}
    (h1 : x1 = excessOf (balanceReport c.P.maxOrd c.accepted .addInteraction .delInteraction)) (h2 : x2 = excessOf (balanceReport c.P.maxOrd c.accepted .addDelta .delDelta))
    (h3 : x3 = excessOf (balanceReport c.P.maxOrd c.accepted .g2w .w2g)) (h4 : x4 = excessOf (balanceReport c.P.maxOrd c.accepted .cont2delta .delta2cont)) :
    (∃ l₀ e₀ : ℕ, 1 ≤ l₀ ∧ l₀ ≤ c.P.maxOrd ∧ e₀ ≤ l₀ ∧ x1 + x2 = c.d.W.live.card - l₀ ∧ x2 + x4 = deltaLines c.d - e₀) ∧
      |x1 + x2| < c.P.maxOrd ∧ |x2 + x4| ≤ c.P.maxOrd ∧ |x1 - x4| ≤ c.P.maxOrd ∧ |x3| ≤ 1 := by
  have he := excesses hP hS hr
  rw [he (.addInteraction, .delInteraction) (by decide)] at h1
  rw [he (.addDelta, .delDelta) (by decide)] at h2
  rw [he (.g2w, .w2g) (by decide)] at h3
  rw [he (.cont2delta, .delta2cont) (by decide)] at h4
  obtain ⟨l₀, e₀, m₀, a1, a2, a3, a4⟩ := laws hP hS hr
  obtain ⟨b1, b2, b3⟩ := a4 _ le_rfl
  obtain ⟨d1, d2⟩ := deltaLines_le hP hS hr
  have hcard := (C10_order_bounds hP hS hr).2
  have hm : (0 : ℤ) ≤ asInt m₀ ∧ asInt m₀ ≤ 1 ∧ (0 : ℤ) ≤ asInt c.d.measG ∧ asInt c.d.measG ≤ 1 := by
    cases m₀ <;> cases c.d.measG <;> decide
  have hw : (1 : ℕ) ≤ max c.d.order 1 := le_max_right _ _
  unfold lineLaw at b1
  unfold deltaLaw at b2
  unfold measLaw at b3
  dsimp only at h1 h2 h3 h4
  rw [hcard]
  generalize max c.d.order 1 = L at *
  refine ⟨⟨l₀, e₀, a1, a2, a3, by omega, by omega⟩, abs_lt.2 ⟨by omega, by omega⟩, abs_le.2 ⟨by omega, by omega⟩, abs_le.2 ⟨by omega, by omega⟩, abs_le.2 ⟨by omega, by omega⟩⟩

/-- **C99**: over a run the changes are exact. -/
theorem C99_run {P₀ : Params Q F} (hP : P₀.Wf) (hS : StartOk P₀) {os : List Words} {c c' : Chain Q F} (hr : Reach P₀ c) (h : hop c os = .ok c') {x y : Op → Op → ℤ}
    (hx : ∀ a b, x a b = excessOf (balanceReport c.P.maxOrd c.accepted a b)) (hy : ∀ a b, y a b = excessOf (balanceReport c'.P.maxOrd c'.accepted a b)) :
    (y .addInteraction .delInteraction + y .addDelta .delDelta) - (x .addInteraction .delInteraction + x .addDelta .delDelta) = c'.d.W.live.card - c.d.W.live.card ∧
      (y .addDelta .delDelta + y .cont2delta .delta2cont) - (x .addDelta .delDelta + x .cont2delta .delta2cont) = deltaLines c'.d - deltaLines c.d ∧
      y .g2w .w2g - x .g2w .w2g = asInt c.d.measG - asInt c'.d.measG := by
  have hP' : c'.P = c.P := by
    obtain ⟨_, -, -, e, -⟩ := C62_counts h
    exact e
  have hr' : Reach P₀ c' := by
    clear hx hy hP'
    induction os generalizing c with
    | nil => cases h; exact hr
    | cons o os ih =>
      simp only [hop] at h
      cases h1 : hopOne c o with
      | abort => rw [h1] at h; cases h
      | ub => rw [h1] at h; cases h
      | ok c1 => rw [h1] at h; exact ih (.hop c c1 o hr h1) h
  have key : lineLaw c.P.maxOrd c' = lineLaw c.P.maxOrd c ∧ deltaLaw c.P.maxOrd c' = deltaLaw c.P.maxOrd c ∧ measLaw c.P.maxOrd c' = measLaw c.P.maxOrd c := by
    have step : ∀ (K : ℕ) (os : List Words) (c : Chain Q F), Reach P₀ c → hop c os = .ok c' → c.P.maxOrd ≤ K →
        lineLaw K c' = lineLaw K c ∧ deltaLaw K c' = deltaLaw K c ∧ measLaw K c' = measLaw K c := by
      intro K os
      induction os with
      | nil => intro c _ h _; cases h; exact ⟨rfl, rfl, rfl⟩
      | cons o os ih =>
        intro c hr h hK
        simp only [hop] at h
        cases h1 : hopOne c o with
        | abort => rw [h1] at h; cases h
        | ub => rw [h1] at h; cases h
        | ok c1 =>
          rw [h1] at h
          obtain ⟨a, b, g⟩ := laws_step hP hS hr h1 hK
          obtain ⟨a', b', g'⟩ := ih c1 (.hop c c1 o hr h1) h (by rw [(hopOne_tables hP hS hr h1).1]; exact hK)
          exact ⟨a'.trans a, b'.trans b, g'.trans g⟩
    exact step _ os c hr h le_rfl
  have he := excesses hP hS hr
  have he' := excesses hP hS hr'
  have q : ∀ p ∈ reportedPairs, x p.1 p.2 = total c.accepted c.P.maxOrd p.1 - total c.accepted c.P.maxOrd p.2 := fun p hp => (hx _ _).trans (he p hp)
  have q' : ∀ p ∈ reportedPairs, y p.1 p.2 = total c'.accepted c.P.maxOrd p.1 - total c'.accepted c.P.maxOrd p.2 := fun p hp => by rw [hy, he' p hp, hP']
  have q1 := q (.addInteraction, .delInteraction) (by decide)
  have q2 := q (.addDelta, .delDelta) (by decide)
  have q3 := q (.g2w, .w2g) (by decide)
  have q4 := q (.cont2delta, .delta2cont) (by decide)
  have r1 := q' (.addInteraction, .delInteraction) (by decide)
  have r2 := q' (.addDelta, .delDelta) (by decide)
  have r3 := q' (.g2w, .w2g) (by decide)
  have r4 := q' (.cont2delta, .delta2cont) (by decide)
  obtain ⟨k1, k2, k3⟩ := key
  unfold lineLaw at k1
  unfold deltaLaw at k2
  unfold measLaw at k3
  rw [(C10_order_bounds hP hS hr).2, (C10_order_bounds hP hS hr').2]
  dsimp only at q1 q2 q3 q4 r1 r2 r3 r4
  generalize max c.d.order 1 = L at *
  generalize max c'.d.order 1 = L' at *
  refine ⟨by omega, by omega, by omega⟩

end

/-- A run that adds one line of each kind: the first two summations show an excess of one each, for three lines of which one is instantaneous. -/
example : ∃ c : Chain ℚ ℚ, Reach demoP c ∧ excessOf (balanceReport c.P.maxOrd c.accepted .addInteraction .delInteraction) = 1 ∧
    excessOf (balanceReport c.P.maxOrd c.accepted .addDelta .delDelta) = 1 ∧ excessOf (balanceReport c.P.maxOrd c.accepted .cont2delta .delta2cont) = 0 ∧
    c.d.W.live.card = 3 ∧ deltaLines c.d = 1 := by
  obtain ⟨c, hr, hf⟩ := demo_reach (P := demoP) demoOps (fun c => decide (total c.accepted c.P.maxOrd .addInteraction - total c.accepted c.P.maxOrd .delInteraction = 1 ∧
    total c.accepted c.P.maxOrd .addDelta - total c.accepted c.P.maxOrd .delDelta = 1 ∧
    total c.accepted c.P.maxOrd .cont2delta - total c.accepted c.P.maxOrd .delta2cont = 0 ∧ c.d.W.live.card = 3 ∧ deltaLines c.d = 1)) (by decide +kernel)
  have he := excesses demoP_wf demoP_start hr
  obtain ⟨h1, h2, h3, h4, h5⟩ := of_decide_eq_true hf
  exact ⟨c, hr, (he (.addInteraction, .delInteraction) (by decide)).trans h1, (he (.addDelta, .delDelta) (by decide)).trans h2,
    (he (.cont2delta, .delta2cont) (by decide)).trans h3, h4, h5⟩

end Feyn
