import Verif.Spec.Collect
import Verif.Props.Monitor
import Verif.Props.Demo
import Verif.Props.MainLoop

/-!
# C60, C61: statistics of all processes
-/

namespace Feyn
set_option linter.unusedSectionVars false
variable {Q F ι κ : Type} [Field Q] [LinearOrder Q] [IsStrictOrderedRing Q] [AddCommGroup F] [Module Q F]

/-! ## C60: pooling -/

/-- Sum of saved data. -/
def pool : List (Stat Q F ι) → Option (Stat Q F ι)
  | [] => none
  | s :: l => some ⟨s.norm, s.normAccu + (l.map fun t => t.normAccu).sum, s.orders,
      fun n i => s.accu n i + (l.map fun t => t.accu n i).sum⟩

theorem merge_pool {norm : Q} {orders : ℕ} {l : List (Stat Q F ι)} {d : Stat Q F ι} (hl : ∀ s ∈ l, s.Like norm orders)
    (hd : d.Like norm orders) : Stat.merge (pool l) d = (pool (l ++ [d]), true) := by
  cases l with
  | nil => simp [pool, Stat.merge]
  | cons s l =>
    have hs := hl s (by simp)
    have h1 : d.orders = s.orders := hd.orders.trans hs.orders.symm
    have h2 : s.norm = d.norm := hs.norm.trans hd.norm.symm
    simp only [pool, Stat.merge, Stat.addTo, h1, if_true, List.cons_append, List.map_append, List.sum_append, List.map_cons, List.map_nil,
      List.sum_cons, List.sum_nil, add_zero, add_assoc, h2, decide_true]

/-- A file with both entries, or one that cannot be read. -/
def statFile (x : Option (Stat Q F ι × Stat Q F κ)) : Option (StatFile Q F ι κ) := x.map fun x => ⟨some x.1, some x.2⟩

theorem addAll_pool {norm norm' : Q} {orders orders' : ℕ} (files : List (Option (Stat Q F ι × Stat Q F κ))) :
    ∀ {l : List (Stat Q F ι × Stat Q F κ)}, (∀ x ∈ l, x.1.Like norm orders ∧ x.2.Like norm' orders') →
    (∀ x, some x ∈ files → x.1.Like norm orders ∧ x.2.Like norm' orders') →
    Collected.addAll ⟨pool (l.map Prod.fst), pool (l.map Prod.snd)⟩ (files.map statFile) =
      (⟨pool ((l ++ files.filterMap id).map Prod.fst), pool ((l ++ files.filterMap id).map Prod.snd)⟩, (files.filterMap id).length) := by
  induction files with
  | nil => intro l _ _; simp [Collected.addAll]
  | cons f files ih =>
    intro l hl hf
    cases f with
    | none =>
      have := ih hl (fun x hx => hf x (by simp [hx]))
      simp only [List.map_cons, Collected.addAll, statFile, Option.map_none, Collected.add]
      rw [this]
      simp
    | some x =>
      obtain ⟨x1, x2⟩ := hf x (by simp)
      have hl' : ∀ y ∈ l ++ [x], y.1.Like norm orders ∧ y.2.Like norm' orders' := by
        intro y hy
        rcases List.mem_append.1 hy with q | q
        · exact hl y q
        · rw [List.mem_singleton.1 q]; exact ⟨x1, x2⟩
      have := ih hl' (fun x hx => hf x (by simp [hx]))
      have m1 := merge_pool (l := l.map Prod.fst) (d := x.1) (fun s hs => by
        obtain ⟨y, hy, rfl⟩ := List.mem_map.1 hs; exact (hl y hy).1) x1
      have m2 := merge_pool (l := l.map Prod.snd) (d := x.2) (fun s hs => by
        obtain ⟨y, hy, rfl⟩ := List.mem_map.1 hs; exact (hl y hy).2) x2
      have key : Collected.add ⟨pool (l.map Prod.fst), pool (l.map Prod.snd)⟩ (statFile (some x)) =
          (⟨pool ((l ++ [x]).map Prod.fst), pool ((l ++ [x]).map Prod.snd)⟩, true) := by
        simp only [statFile, Option.map_some, Collected.add, m1, m2, if_true, List.map_append, List.map_cons, List.map_nil]
      simp only [List.map_cons, Collected.addAll, key]
      rw [this]
      simp

theorem ratio_test {a b : ℕ} (hb : b ≠ 0) : (a : Q) / (b : Q) < 3 / 4 ↔ 4 * a < 3 * b := by
  have : (0 : Q) < b := by exact_mod_cast Nat.pos_of_ne_zero hb
  rw [div_lt_div_iff₀ this (by norm_num), mul_comm (a : Q)]
  exact_mod_cast Iff.rfl

theorem pool_some {l : List (Stat Q F ι)} {norm : Q} {orders : ℕ} (hl : ∀ s ∈ l, s.Like norm orders) (h0 : l ≠ []) :
    ∃ s, pool l = some s ∧ s.Like norm orders ∧ s.normAccu = (l.map fun t => t.normAccu).sum ∧
      ∀ n i, s.accu n i = (l.map fun t => t.accu n i).sum := by
  cases l with
  | nil => exact absurd rfl h0
  | cons s l =>
    have := hl s (by simp)
    exact ⟨_, rfl, ⟨this.norm, this.orders⟩, by simp, fun n i => by simp⟩

/-- **C60**: files in the same units are pooled: data and normalisations are summed over all readable files, if these are at least
three quarters of all files. Otherwise the collection is refused. -/
theorem C60_pooled {norm norm' : Q} {orders orders' : ℕ} (files : List (Option (Stat Q F ι × Stat Q F κ)))
    (hf : ∀ x, some x ∈ files → x.1.Like norm orders ∧ x.2.Like norm' orders') (h0 : files ≠ []) :
    (3 * files.length ≤ 4 * (files.filterMap id).length → ∃ s p, collectStatis (files.map statFile) = some ⟨some s, some p⟩ ∧
      s.Like norm orders ∧ p.Like norm' orders' ∧
      s.normAccu = ((files.filterMap id).map fun x => x.1.normAccu).sum ∧
      p.normAccu = ((files.filterMap id).map fun x => x.2.normAccu).sum ∧
      (∀ n i, s.accu n i = ((files.filterMap id).map fun x => x.1.accu n i).sum) ∧
      ∀ n i, p.accu n i = ((files.filterMap id).map fun x => x.2.accu n i).sum) ∧
    (4 * (files.filterMap id).length < 3 * files.length → collectStatis (files.map statFile) = none) := by
  have hn : files.length ≠ 0 := fun q => h0 (List.length_eq_zero_iff.1 q)
  have key := addAll_pool files (l := []) (by simp) hf
  rw [List.map_nil, List.map_nil, List.nil_append] at key
  change Collected.addAll ⟨none, none⟩ _ = _ at key
  have hg : ∀ x ∈ files.filterMap id, x.1.Like norm orders ∧ x.2.Like norm' orders' := by
    intro x hx
    obtain ⟨y, hy, e⟩ := List.mem_filterMap.1 hx
    exact hf x (by rw [← show y = some x from e]; exact hy)
  constructor
  · intro hc
    have hne : files.filterMap id ≠ [] := by
      intro q
      rw [q] at hc
      simp only [List.length_nil] at hc
      omega
    obtain ⟨s, s1, s2, s3, s4⟩ := pool_some (l := (files.filterMap id).map Prod.fst) (norm := norm) (orders := orders) (fun s hs => by
      obtain ⟨y, hy, rfl⟩ := List.mem_map.1 hs; exact (hg y hy).1) (by simpa using hne)
    obtain ⟨p, p1, p2, p3, p4⟩ := pool_some (l := (files.filterMap id).map Prod.snd) (norm := norm') (orders := orders') (fun s hs => by
      obtain ⟨y, hy, rfl⟩ := List.mem_map.1 hs; exact (hg y hy).2) (by simpa using hne)
    refine ⟨s, p, ?_, s2, p2, ?_, ?_, ?_, ?_⟩
    · simp only [collectStatis, List.length_map, hn, if_false]
      rw [key]
      simp only [ratio_test (Q := Q) hn]
      rw [if_neg (by omega), s1, p1]
    · rw [s3, List.map_map]; rfl
    · rw [p3, List.map_map]; rfl
    · intro n i; rw [s4, List.map_map]; rfl
    · intro n i; rw [p4, List.map_map]; rfl
  · intro hc
    simp only [collectStatis, List.length_map, hn, if_false]
    rw [key]
    simp only [ratio_test (Q := Q) hn]
    rw [if_pos hc]

/-- **C60**: the order in which the files are listed does not matter. -/
theorem C60_order {norm norm' : Q} {orders orders' : ℕ} {files files' : List (Option (Stat Q F ι × Stat Q F κ))}
    (hf : ∀ x, some x ∈ files → x.1.Like norm orders ∧ x.2.Like norm' orders') (hp : files.Perm files') :
    collectStatis (files.map statFile) = collectStatis (files'.map statFile) := by
  by_cases h0 : files = []
  · rw [h0] at hp
    rw [h0, hp.nil_eq]
  have h0' : files' ≠ [] := fun q => h0 (by rw [q] at hp; exact hp.eq_nil)
  have hf' : ∀ x, some x ∈ files' → x.1.Like norm orders ∧ x.2.Like norm' orders' := fun x hx => hf x (hp.mem_iff.2 hx)
  have pg : (files.filterMap id).Perm (files'.filterMap id) := hp.filterMap id
  obtain ⟨a1, a2⟩ := C60_pooled files hf h0
  obtain ⟨b1, b2⟩ := C60_pooled files' hf' h0'
  by_cases hc : 3 * files.length ≤ 4 * (files.filterMap id).length
  · obtain ⟨s, p, e, s1, p1, s2, p2, s3, p3⟩ := a1 hc
    obtain ⟨s', p', e', s1', p1', s2', p2', s3', p3'⟩ := b1 (by rw [← hp.length_eq, ← pg.length_eq]; exact hc)
    rw [e, e']
    have hs : s = s' := by
      obtain ⟨sn, sa, so, sd⟩ := s
      obtain ⟨sn', sa', so', sd'⟩ := s'
      obtain rfl : sn = sn' := s1.norm.trans s1'.norm.symm
      obtain rfl : so = so' := s1.orders.trans s1'.orders.symm
      obtain rfl : sa = sa' := s2.trans (((pg.map _).sum_eq).trans s2'.symm)
      obtain rfl : sd = sd' := funext fun n => funext fun i => (s3 n i).trans (((pg.map _).sum_eq).trans (s3' n i).symm)
      rfl
    have hp' : p = p' := by
      obtain ⟨sn, sa, so, sd⟩ := p
      obtain ⟨sn', sa', so', sd'⟩ := p'
      obtain rfl : sn = sn' := p1.norm.trans p1'.norm.symm
      obtain rfl : so = so' := p1.orders.trans p1'.orders.symm
      obtain rfl : sa = sa' := p2.trans (((pg.map _).sum_eq).trans p2'.symm)
      obtain rfl : sd = sd' := funext fun n => funext fun i => (p3 n i).trans (((pg.map _).sum_eq).trans (p3' n i).symm)
      rfl
    rw [hs, hp']
  · rw [a2 (by omega), b2 (by rw [← hp.length_eq, ← pg.length_eq]; omega)]

theorem addAll_le (files : List (Option (StatFile Q F ι κ))) : ∀ c, (Collected.addAll c files).2 ≤ files.length := by
  induction files with
  | nil => intro c; simp [Collected.addAll]
  | cons f files ih =>
    intro c
    simp only [Collected.addAll, List.length_cons]
    have := ih (c.add f).1
    split_ifs <;> omega

/-- **C60**: whatever the files contain, an accepted collection has merged at least three quarters of them. -/
theorem C60_share (files : List (Option (StatFile Q F ι κ))) {c : Collected Q F ι κ} (h : collectStatis files = some c) :
    c = (Collected.addAll ⟨none, none⟩ files).1 ∧ 3 * files.length ≤ 4 * (Collected.addAll ⟨none, none⟩ files).2 := by
  unfold collectStatis at h
  by_cases hn : files.length = 0
  · rw [if_pos hn] at h; exact absurd h (by simp)
  · rw [if_neg hn] at h
    simp only [ratio_test (Q := Q) hn] at h
    split_ifs at h with hc
    injection h with h
    exact ⟨h.symm, by omega⟩

/-- A data set that fits to what was collected before: the same units, and as many orders or one. -/
def Stat.Fits {ι : Type} (s : Option (Stat Q F ι)) (d : Stat Q F ι) : Prop := ∀ t, s = some t → t.norm = d.norm ∧ (d.orders = t.orders ∨ d.orders = 1)

theorem merge_ok {ι : Type} (s : Option (Stat Q F ι)) (d : Stat Q F ι) : (Stat.merge s d).2 = true ↔ Stat.Fits s d := by
  unfold Stat.merge Stat.Fits Stat.addTo
  cases s with
  | none => simp
  | some t =>
    simp only [Option.some.injEq]
    constructor
    · intro h t' ht
      subst ht
      split_ifs at h with c1 c2
      · exact ⟨by simpa using h, .inl c1⟩
      · exact ⟨by simpa using h, .inr c2⟩
    · intro h
      obtain ⟨h1, h2⟩ := h t rfl
      split_ifs with c1 c2
      · simpa using h1
      · simpa using h1
      · exact absurd h2 (by tauto)

/-- **C60**: a file is counted as a success only if both functions are there and both fit to what was collected before. -/
theorem C60_success (c : Collected Q F ι κ) (f : Option (StatFile Q F ι κ)) :
    (c.add f).2 = true ↔ ∃ x d e, f = some x ∧ x.sigma = some d ∧ x.polar = some e ∧ Stat.Fits c.sigma d ∧ Stat.Fits c.polar e := by
  unfold Collected.add
  cases f with
  | none => simp
  | some x =>
    obtain ⟨xs, xp⟩ := x
    cases xs with
    | none => simp
    | some d =>
      simp only
      by_cases h : Stat.Fits c.sigma d
      · rw [if_pos ((merge_ok _ _).2 h)]
        cases xp with
        | none => simp
        | some e => simp [merge_ok, h]
      · rw [if_neg (fun q => h ((merge_ok _ _).1 q))]
        simp [h]

/-- Both functions of the file are in the units of the collection. -/
def Collected.SameUnits (c : Collected Q F ι κ) (f : Option (StatFile Q F ι κ)) : Prop :=
  ∃ x d e, f = some x ∧ x.sigma = some d ∧ x.polar = some e ∧ c.sigma.map Stat.norm = some d.norm ∧ c.polar.map Stat.norm = some e.norm

theorem merge_norm {ι : Type} (s : Option (Stat Q F ι)) (d : Stat Q F ι) :
    (Stat.merge s d).1.map Stat.norm = some ((s.map Stat.norm).getD d.norm) := by
  unfold Stat.merge Stat.addTo
  cases s with
  | none => rfl
  | some t => simp only; split_ifs <;> rfl

theorem add_norm (c : Collected Q F ι κ) (f : Option (StatFile Q F ι κ)) (u : Q) :
    (c.sigma.map Stat.norm = some u → (c.add f).1.sigma.map Stat.norm = some u) ∧ (c.polar.map Stat.norm = some u → (c.add f).1.polar.map Stat.norm = some u) := by
  unfold Collected.add
  cases f with
  | none => exact ⟨id, id⟩
  | some x =>
    obtain ⟨xs, xp⟩ := x
    cases xs with
    | none => exact ⟨id, id⟩
    | some d =>
      simp only
      have h1 : ∀ u, c.sigma.map Stat.norm = some u → (Stat.merge c.sigma d).1.map Stat.norm = some u := fun u h => by rw [merge_norm, h]; rfl
      split_ifs
      · cases xp with
        | none => exact ⟨h1 u, id⟩
        | some e => exact ⟨h1 u, fun h => by rw [merge_norm, h]; rfl⟩
      · exact ⟨h1 u, id⟩

theorem addAll_norm (l : List (Option (StatFile Q F ι κ))) : ∀ (c : Collected Q F ι κ) (u : Q),
    (c.sigma.map Stat.norm = some u → (c.addAll l).1.sigma.map Stat.norm = some u) ∧ (c.polar.map Stat.norm = some u → (c.addAll l).1.polar.map Stat.norm = some u) := by
  induction l with
  | nil => exact fun c u => ⟨id, id⟩
  | cons f l ih =>
    intro c u
    exact ⟨fun h => (ih _ u).1 ((add_norm c f u).1 h), fun h => (ih _ u).2 ((add_norm c f u).2 h)⟩

theorem add_units {c : Collected Q F ι κ} {f : Option (StatFile Q F ι κ)} (h : (c.add f).2 = true) : (c.add f).1.SameUnits f := by
  obtain ⟨x, d, e, rfl, h1, h2, h3, h4⟩ := (C60_success c f).1 h
  refine ⟨x, d, e, rfl, h1, h2, ?_⟩
  unfold Collected.add
  simp only [h1, h2, if_pos ((merge_ok _ _).2 h3), merge_norm, Option.some.injEq]
  constructor
  · cases hs : c.sigma with
    | none => rfl
    | some t => exact (h3 t hs).1
  · cases hs : c.polar with
    | none => rfl
    | some t => exact (h4 t hs).1

open Classical in
theorem addAll_units (l : List (Option (StatFile Q F ι κ))) : ∀ (c c' : Collected Q F ι κ), (c.addAll l).1 = c' →
    (c.addAll l).2 ≤ l.countP fun f => decide (c'.SameUnits f) := by
  induction l with
  | nil => exact fun c c' _ => le_rfl
  | cons f l ih =>
    intro c c' h
    have := ih (c.add f).1 c' h
    rw [List.countP_cons]
    refine Nat.add_le_add this ?_
    by_cases hf : (c.add f).2 = true
    · obtain ⟨x, d, e, q1, q2, q3, q4, q5⟩ := add_units hf
      have k : c'.SameUnits f := by
        refine ⟨x, d, e, q1, q2, q3, ?_, ?_⟩
        · rw [← h]; exact (addAll_norm l _ _).1 q4
        · rw [← h]; exact (addAll_norm l _ _).2 q5
      rw [if_pos hf, if_pos (by simpa using k)]
    · rw [if_neg hf]
      exact Nat.zero_le _

open Classical in
/-- **C60**: whatever the files contain, an accepted collection has at least three quarters of the files in its units. -/
theorem C60_units (files : List (Option (StatFile Q F ι κ))) {c : Collected Q F ι κ} (h : collectStatis files = some c) :
    3 * files.length ≤ 4 * files.countP fun f => decide (c.SameUnits f) := by
  obtain ⟨h1, h2⟩ := C60_share files h
  have := addAll_units files _ _ h1.symm
  omega

/-- What a file that is counted as a failure leaves behind. Full claim: nothing. That holds for files that cannot be read, without
self energy, or with another number of orders (except one); not in the two other cases, see `C60_refuted_norm`,
`C60_refuted_half`. -/
theorem C60_failure_partial (c : Collected Q F ι κ) (f : Option (StatFile Q F ι κ)) (h : (c.add f).2 = false)
    (hf : ∀ x d, f = some x → x.sigma = some d → ∃ s, c.sigma = some s ∧ d.orders ≠ s.orders ∧ d.orders ≠ 1) :
    (c.add f).1 = c := by
  cases f with
  | none => rfl
  | some x =>
    cases hx : x.sigma with
    | none => simp [Collected.add, hx]
    | some d =>
      obtain ⟨s, hs, h1, h2⟩ := hf x d rfl hx
      obtain ⟨cs, cp⟩ := c
      simp only at hs
      subst hs
      simp [Collected.add, hx, Stat.merge, Stat.addTo, h1, h2]

/-- Data with one cell. -/
def oneCell (norm normAccu : ℚ) (orders : ℕ) (x : ℚ) : Stat ℚ ℚ Unit := ⟨norm, normAccu, orders, fun _ _ => x⟩
/-- A file with the same data twice. -/
def twice (s : Stat ℚ ℚ Unit) : Option (StatFile ℚ ℚ Unit Unit) := some ⟨some s, some s⟩
/-- The collected self energy at order `n`. -/
def sigmaOf (c : Option (Collected ℚ ℚ Unit Unit)) (n : ℕ) : Option ℚ := (c.bind fun c => c.sigma).map fun s => s.value n ()

/-- A file in other units is reported as a failure, after its data were added. -/
theorem C60_refuted_norm :
    sigmaOf (collectStatis [twice (oneCell 1 1 1 1), twice (oneCell 1 1 1 1), twice (oneCell 1 1 1 1), twice (oneCell 2 1 1 5)]) 1 = some 2 ∧
    sigmaOf (collectStatis [twice (oneCell 1 1 1 1), twice (oneCell 1 1 1 1), twice (oneCell 1 1 1 1), none]) 1 = some 1 := by
  decide +kernel

/-- Of a file without polarisation, which is reported as a failure, the self energy was added. -/
theorem C60_refuted_half :
    sigmaOf (collectStatis [twice (oneCell 1 1 1 1), twice (oneCell 1 1 1 1), twice (oneCell 1 1 1 1),
      some ⟨some (oneCell 1 1 1 5), none⟩]) 1 = some 2 ∧
    sigmaOf (collectStatis [twice (oneCell 1 1 1 1), twice (oneCell 1 1 1 1), twice (oneCell 1 1 1 1), none]) 1 = some 1 := by
  decide +kernel

/-- `MergeFromDict` is said to "work even if order WeightDict is smaller than MaxOrder". A file of order one is added to every order, and
its normalisation too. -/
theorem C60_refuted_orders :
    sigmaOf (collectStatis [twice (oneCell 1 1 3 0), twice (oneCell 1 1 1 4)]) 3 = some 2 := by
  decide +kernel

/-- Two orders do not fit into three: the file is a failure. -/
example : (Stat.merge (some (oneCell 1 1 3 0)) (oneCell 1 1 2 4)).2 = false := by decide +kernel

/-- C60 on a case: three readable files of four. -/
example : sigmaOf (collectStatis ([some (oneCell 1 3 2 1, oneCell 1 3 2 1), none, some (oneCell 1 1 2 2, oneCell 1 1 2 2),
    some (oneCell 1 4 2 5, oneCell 1 4 2 5)].map statFile)) 2 = some 1 := by
  decide +kernel

/-! ### Processes -/

section
variable {F : Type} [Field F] [Algebra Q F] [StarRing F] [FloorRing Q]

theorem Monitor.Fits.orders {P : Params Q F} {s : Measured Q F} {sp : ℤ} (h : s.Fits P sp) :
    s.est.toStat.orders = P.maxOrd ∧ (∀ (n : ℕ) (j : ℤ), s.est.toStat.accu n j = s.cell (n + 1 : ℕ) j) := by
  have h1 := h.est.cells
  have h2 := h.est.perOrder
  have h3 := h.est.size_pos
  constructor
  · unfold Histo.toStat
    simp only [h1, h2]
    rw [Int.mul_ediv_cancel _ (by omega)]
    simp
  · intro n j
    simp only [Histo.toStat, Measured.cell, h2]
    congr 2
    push_cast
    ring

/-- A monitor that has grown from a blank one by measuring `l`. -/
structure Grown (P : Params Q F) (m₀ : Monitor Q F) (l : List (Chain Q F)) (m : Monitor Q F) : Prop where
  fits : m.Fits P
  sigmaUnit : m.sigma.est.norm = m₀.sigma.est.norm
  polarUnit : m.polar.est.norm = m₀.polar.est.norm
  sigmaMap : m.sigma.map = m₀.sigma.map
  polarMap : m.polar.map = m₀.polar.map
  sigmaNorm : m.sigma.est.normAccu = (l.map fun c => normShare c.P true c.d).sum
  polarNorm : m.polar.est.normAccu = (l.map fun c => normShare c.P false c.d).sum
  sigmaCells : ∀ (n : ℕ) (j : ℤ), n < P.maxOrd → 0 ≤ j → j < m₀.sigma.map.sizeSmooth →
    m.sigma.cell (n + 1 : ℕ) j = (l.map fun c => sigmaShare c.P m₀.sigma c.d (n + 1 : ℕ) j).sum
  polarCells : ∀ (n : ℕ) (j : ℤ), n < P.maxOrd → 0 ≤ j → j < m₀.polar.map.sizeSmooth →
    m.polar.cell (n + 1 : ℕ) j = (l.map fun c => polarShare c.P m₀.polar c.d (n + 1 : ℕ) j).sum

/-- **C60**, whole processes: any number of processes of the same model, each with any run of its own, are saved and collected. The
result contains the sums over all configurations that any of them has visited: the same as one process would have that had visited all of
them. -/
theorem C60_processes {P₀ : Params Q F} (hP : P₀.Wf) (hS : StartOk P₀) {P : Params Q F} {m₀ : Monitor Q F}
    (runs : List (Monitor Q F × List (Chain Q F))) (hr : runs ≠ [])
    (h : ∀ r ∈ runs, r.1.Fits P ∧ m₀.Blank r.1 ∧ ∀ c ∈ r.2, Reach P₀ c ∧ SameModel P c.P) (hm : m₀.Fits P) (hb : m₀.Blank m₀) :
    ∃ (ms : List (Monitor Q F)) (one : Monitor Q F) (s p : Stat Q F ℤ),
      List.Forall₂ (fun r m => r.1.measures r.2 = .ok m) runs ms ∧
      m₀.measures (runs.map Prod.snd).flatten = .ok one ∧
      collectStatis (ms.map fun m => some m.toStatFile) = some ⟨some s, some p⟩ ∧
      s.normAccu = ((runs.map Prod.snd).flatten.map fun c => normShare c.P true c.d).sum ∧
      p.normAccu = ((runs.map Prod.snd).flatten.map fun c => normShare c.P false c.d).sum ∧
      (∀ (n : ℕ) (j : ℤ), n < P.maxOrd → 0 ≤ j → j < m₀.sigma.map.sizeSmooth →
        s.accu n j = ((runs.map Prod.snd).flatten.map fun c => sigmaShare c.P m₀.sigma c.d (n + 1 : ℕ) j).sum ∧
        s.value (n + 1) j = one.sigma.est.value (n * m₀.sigma.map.sizeSmooth + j)) ∧
      ∀ (n : ℕ) (j : ℤ), n < P.maxOrd → 0 ≤ j → j < m₀.polar.map.sizeSmooth →
        p.accu n j = ((runs.map Prod.snd).flatten.map fun c => polarShare c.P m₀.polar c.d (n + 1 : ℕ) j).sum ∧
        p.value (n + 1) j = one.polar.est.value (n * m₀.polar.map.sizeSmooth + j) := by
  have blank : ∀ {x : Monitor Q F}, x.Fits P → m₀.Blank x →
      (∀ (n : ℕ) (j : ℤ), 1 ≤ n → n ≤ P.maxOrd → 0 ≤ j → j < x.sigma.map.sizeSmooth → x.sigma.cell n j = 0) ∧
      ∀ (n : ℕ) (j : ℤ), 1 ≤ n → n ≤ P.maxOrd → 0 ≤ j → j < x.polar.map.sizeSmooth → x.polar.cell n j = 0 := by
    intro x hx hb
    refine ⟨fun n j a b c d => hb.sigmaCells _ ?_ ?_, fun n j a b c d => hb.polarCells _ ?_ ?_⟩
    · exact add_nonneg (mul_nonneg (by omega) hx.sigma.est.size_pos.le) c
    · rw [hx.sigma.est.cells]
      have : (n : ℤ) ≤ P.maxOrd := by exact_mod_cast b
      nlinarith
    · exact add_nonneg (mul_nonneg (by omega) hx.polar.est.size_pos.le) c
    · rw [hx.polar.est.cells]
      have : (n : ℤ) ≤ P.maxOrd := by exact_mod_cast b
      nlinarith
  have each : ∀ {x : Monitor Q F} {l : List (Chain Q F)}, x.Fits P → m₀.Blank x → (∀ c ∈ l, Reach P₀ c ∧ SameModel P c.P) →
      ∃ m, x.measures l = .ok m ∧ Grown P m₀ l m := by
    intro x l hx hb hl
    obtain ⟨m, e, hf, -, -, -, -, a1, a2, a3, a4⟩ := C42_run hP hS l hl hx
    obtain ⟨u1, u2, u3, u4⟩ := C42_run_units hP hS l hl hx e
    refine ⟨m, e, hf, u1.trans hb.sigmaUnit, u2.trans hb.polarUnit, u3.trans hb.sigmaMap, u4.trans hb.polarMap, ?_, ?_, ?_, ?_⟩
    · rw [a1, hb.sigmaNorm, zero_add]
    · rw [a2, hb.polarNorm, zero_add]
    · intro n j b1 b2 b3
      have b3' : j < x.sigma.map.sizeSmooth := by rw [hb.sigmaMap]; exact b3
      rw [a3 (n + 1) j (by omega) (by omega) b2 b3', (blank hx hb).1 (n + 1) j (by omega) (by omega) b2 b3', zero_add]
      simp only [sigmaShare_map hb.sigmaMap]
    · intro n j b1 b2 b3
      have b3' : j < x.polar.map.sizeSmooth := by rw [hb.polarMap]; exact b3
      rw [a4 (n + 1) j (by omega) (by omega) b2 b3', (blank hx hb).2 (n + 1) j (by omega) (by omega) b2 b3', zero_add]
      simp only [polarShare_map hb.polarMap]
  obtain ⟨ms, hms⟩ : ∃ ms, List.Forall₂ (fun (r : Monitor Q F × List (Chain Q F)) m => r.1.measures r.2 = .ok m ∧ Grown P m₀ r.2 m) runs ms := by
    clear hr
    induction runs with
    | nil => exact ⟨[], .nil⟩
    | cons r runs ih =>
      obtain ⟨ms, hms⟩ := ih (fun x hx => h x (by simp [hx]))
      obtain ⟨h1, h2, h3⟩ := h r (by simp)
      obtain ⟨m, hm⟩ := each h1 h2 h3
      exact ⟨m :: ms, .cons hm hms⟩
  obtain ⟨one, e1, g1⟩ := each (l := (runs.map Prod.snd).flatten) hm hb (by
    intro c hc
    obtain ⟨l, hl, hcl⟩ := List.mem_flatten.1 hc
    obtain ⟨r, hr, rfl⟩ := List.mem_map.1 hl
    exact (h r hr).2.2 c hcl)
  have grown : ∀ m ∈ ms, ∃ l, Grown P m₀ l m := by
    intro m hm
    clear hr h e1 g1
    induction hms with
    | nil => cases hm
    | cons a _ ih =>
      rcases List.mem_cons.1 hm with rfl | q
      · exact ⟨_, a.2⟩
      · exact ih q
  have hne : ms ≠ [] := by
    rintro rfl
    cases hms
    exact hr rfl
  have sums : ∀ {A : Type} [AddCommMonoid A] (f : Monitor Q F → A) (g : Chain Q F → A),
      (∀ l m, Grown P m₀ l m → f m = (l.map g).sum) → (ms.map f).sum = ((runs.map Prod.snd).flatten.map g).sum := by
    intro A _ f g hfg
    clear e1 g1 grown hne hr h
    induction hms with
    | nil => simp
    | cons a _ ih => rw [List.map_cons, List.sum_cons, ih, hfg _ _ a.2]; simp
  obtain ⟨a, -⟩ := C60_pooled (norm := m₀.sigma.est.norm) (norm' := m₀.polar.est.norm) (orders := P.maxOrd) (orders' := P.maxOrd)
    (ms.map fun m => some (m.sigma.est.toStat, m.polar.est.toStat)) (by
      intro x hx
      obtain ⟨m, hm, e⟩ := List.mem_map.1 hx
      injection e with e
      obtain ⟨l, g⟩ := grown m hm
      rw [← e]
      exact ⟨⟨g.sigmaUnit, (Monitor.Fits.orders g.fits.sigma).1⟩, ⟨g.polarUnit, (Monitor.Fits.orders g.fits.polar).1⟩⟩) (by simpa using hne)
  have hfm : (ms.map fun m => some (m.sigma.est.toStat, m.polar.est.toStat)).filterMap id =
      ms.map fun m => (m.sigma.est.toStat, m.polar.est.toStat) := by
    induction ms with
    | nil => rfl
    | cons m ms ih => simp
  rw [hfm] at a
  obtain ⟨s, p, c1, c2, c3, c4, c5, c6, c7⟩ := a (by simp; omega)
  have n1 : s.normAccu = ((runs.map Prod.snd).flatten.map fun c => normShare c.P true c.d).sum := by
    rw [c4, List.map_map]
    exact sums _ _ fun l m g => g.sigmaNorm
  have n2 : p.normAccu = ((runs.map Prod.snd).flatten.map fun c => normShare c.P false c.d).sum := by
    rw [c5, List.map_map]
    exact sums _ _ fun l m g => g.polarNorm
  have d1 : ∀ (n : ℕ) (j : ℤ), n < P.maxOrd → 0 ≤ j → j < m₀.sigma.map.sizeSmooth →
      s.accu n j = ((runs.map Prod.snd).flatten.map fun c => sigmaShare c.P m₀.sigma c.d (n + 1 : ℕ) j).sum := by
    intro n j b1 b2 b3
    rw [c6, List.map_map]
    exact sums _ _ fun l m g => ((Monitor.Fits.orders g.fits.sigma).2 n j).trans (g.sigmaCells n j b1 b2 b3)
  have d2 : ∀ (n : ℕ) (j : ℤ), n < P.maxOrd → 0 ≤ j → j < m₀.polar.map.sizeSmooth →
      p.accu n j = ((runs.map Prod.snd).flatten.map fun c => polarShare c.P m₀.polar c.d (n + 1 : ℕ) j).sum := by
    intro n j b1 b2 b3
    rw [c7, List.map_map]
    exact sums _ _ fun l m g => ((Monitor.Fits.orders g.fits.polar).2 n j).trans (g.polarCells n j b1 b2 b3)
  refine ⟨ms, one, s, p, hms.imp fun _ _ q => q.1, e1, ?_, n1, n2, fun n j b1 b2 b3 => ⟨d1 n j b1 b2 b3, ?_⟩,
    fun n j b1 b2 b3 => ⟨d2 n j b1 b2 b3, ?_⟩⟩
  · rw [← c1, List.map_map]
    rfl
  · unfold Stat.value Histo.value
    rw [c2.norm, n1, g1.sigmaUnit, g1.sigmaNorm, Nat.add_sub_cancel, d1 n j b1 b2 b3]
    have := g1.sigmaCells n j b1 b2 b3
    rw [← this]
    unfold Measured.cell
    rw [g1.sigmaMap]
    push_cast
    rw [add_sub_cancel_right]
  · unfold Stat.value Histo.value
    rw [c3.norm, n2, g1.polarUnit, g1.polarNorm, Nat.add_sub_cancel, d2 n j b1 b2 b3]
    have := g1.polarCells n j b1 b2 b3
    rw [← this]
    unfold Measured.cell
    rw [g1.polarMap]
    push_cast
    rw [add_sub_cancel_right]

end

section
local instance collectStar : StarRing ℚ := starRingOfComm

/-- C60 on a case: two processes, one of which has visited one configuration and the other two, are equivalent to one process that has
visited three. -/
example : ∃ c one s p, Reach demoP c ∧ demoMonitor.measures [c, c, c] = .ok one ∧
    (collectStatis [some one.toStatFile] = some ⟨some s, some p⟩) ∧ s.accu 0 24 = 3 := by
  obtain ⟨c, h1, h2, h3⟩ := startChain_demo
  have hb : demoMonitor.Blank demoMonitor := ⟨rfl, rfl, rfl, rfl, rfl, rfl, fun _ _ _ => rfl, fun _ _ _ => rfl⟩
  have hs : SameModel demoP c.P := by rw [h3]; exact ⟨_, _, _, _, _, rfl, rfl⟩
  have hc : ∀ x ∈ [c, c, c], Reach demoP x ∧ SameModel demoP x.P := by
    intro x hx
    simp only [List.mem_cons, List.not_mem_nil, or_false, or_self] at hx
    rw [hx]
    exact ⟨h2, hs⟩
  obtain ⟨ms, one, s, p, -, k1, -, -, -, k2, -⟩ := C60_processes demoP_wf demoP_start (m₀ := demoMonitor)
    [(demoMonitor, [c]), (demoMonitor, [c, c])] (by simp) (by
      intro r hr
      refine ⟨?_, ?_, fun x hx => hc x ?_⟩
      · simp only [List.mem_cons, List.not_mem_nil, or_false] at hr
        rcases hr with rfl | rfl <;> exact demoMonitor_fits
      · simp only [List.mem_cons, List.not_mem_nil, or_false] at hr
        rcases hr with rfl | rfl <;> exact hb
      · simp only [List.mem_cons, List.not_mem_nil, or_false] at hr
        rcases hr with rfl | rfl <;> simpa using hx) demoMonitor_fits hb
  obtain ⟨ms', one', s', p', a1, a2, a3, -, -, a4, -⟩ := C60_processes demoP_wf demoP_start (m₀ := demoMonitor)
    [(demoMonitor, [c, c, c])] (by simp) (by
      intro r hr
      simp only [List.mem_cons, List.not_mem_nil, or_false] at hr
      rw [hr]
      exact ⟨demoMonitor_fits, hb, hc⟩) demoMonitor_fits hb
  obtain ⟨m, rfl, e⟩ : ∃ m, ms' = [m] ∧ demoMonitor.measures [c, c, c] = .ok m := by
    cases a1 with
    | cons x y => cases y; exact ⟨_, rfl, x⟩
  have hm : m = one := by
    rw [show ([(demoMonitor, [c]), (demoMonitor, [c, c])].map Prod.snd).flatten = [c, c, c] from rfl, e] at k1
    exact Res.ok.inj k1
  have h24 := (a4 0 24 (by decide) (by decide) (by decide)).1
  refine ⟨c, one, s', p', h2, by rw [← hm]; exact e, by rw [← hm]; exact a3, ?_⟩
  rw [h24]
  have hx : (startChain demoP >>= fun c => demoMonitor.measure c.P c.d).test (fun m' => m'.sigma.cell 1 24 = 1) = true := by
    decide +kernel
  rw [h1] at hx
  obtain ⟨m1, e1, f1, r⟩ := C42_measure demoP_wf demoP_start h2 (by rw [h3]; exact demoMonitor_fits : demoMonitor.Fits c.P)
  have hx : (demoMonitor.measure c.P c.d).test (fun m' => m'.sigma.cell 1 24 = 1) = true := hx
  rw [e1] at hx
  have hx : m1.sigma.cell 1 24 = 1 := by simpa [Res.test] using hx
  have := r.sigmaCells 1 24 le_rfl (by rw [h3]; decide) (by decide) (by decide)
  rw [show ((1 : ℕ) : ℤ) = 1 from rfl, hx, show demoMonitor.sigma.cell 1 24 = 0 from rfl, zero_add] at this
  simp only [List.map_cons, List.map_nil, List.flatten_cons, List.flatten_nil, List.append_nil, List.sum_cons, List.sum_nil,
    zero_add, Nat.cast_one, ← this]
  norm_num

end

/-! ## C61: accepted orders -/

section
variable (err : ℕ → Option Q) (threshold : Q) (before : ℕ)

theorem accepted_spec (left : ℕ) : ∀ n, 1 ≤ n → (∀ i, 1 ≤ i → i < n → Passes err threshold before i) →
    (∀ k, Stat.accepted err threshold before (judged err (n - 1)) left n = some k →
      n - 1 ≤ k ∧ k ≤ n - 1 + left ∧ (∀ i, 1 ≤ i → i ≤ k → Passes err threshold before i) ∧
        (k < n - 1 + left → ¬ Passes err threshold before (k + 1) ∧ judged err (k + 1) ≠ none)) ∧
    (Stat.accepted err threshold before (judged err (n - 1)) left n = none → judged err n = none) := by
  induction left with
  | zero =>
    intro n hn hp
    refine ⟨fun k hk => ?_, fun h => ?_⟩
    · simp only [Stat.accepted, Option.some.injEq] at hk
      subst hk
      exact ⟨le_rfl, by omega, fun i h1 h2 => hp i h1 (by omega), fun h => absurd h (by omega)⟩
    · simp [Stat.accepted] at h
  | succ left ih =>
    intro n hn hp
    obtain ⟨m, rfl⟩ : ∃ m, n = m + 1 := ⟨n - 1, by omega⟩
    have hj : (err (m + 1)).or (judged err (m + 1 - 1)) = judged err (m + 1) := by simp [judged]
    unfold Stat.accepted
    rw [hj]
    cases he : judged err (m + 1) with
    | none => exact ⟨fun k hk => by simp at hk, fun _ => rfl⟩
    | some e =>
      simp only
      by_cases hc : e < threshold ∨ m + 1 ≤ before
      · rw [if_pos hc]
        have := ih (m + 2) (by omega) (fun i h1 h2 => by
          rcases Nat.lt_or_ge i (m + 1) with q | q
          · exact hp i h1 q
          · obtain rfl : i = m + 1 := by omega
            exact ⟨e, he, hc⟩)
        rw [show m + 2 - 1 = m + 1 from rfl, he] at this
        refine ⟨fun k hk => ?_, fun h => ?_⟩
        · obtain ⟨a, b, c, d⟩ := this.1 k hk
          exact ⟨by omega, by omega, c, fun q => d (by omega)⟩
        · have := this.2 h
          simp only [judged] at this he
          rw [he] at this
          simp at this
      · rw [if_neg hc]
        refine ⟨fun k hk => ?_, fun h => by simp at h⟩
        simp only [Option.some.injEq] at hk
        subst hk
        simp only [Nat.add_sub_cancel]
        refine ⟨le_rfl, by omega, fun i h1 h2 => hp i h1 (by omega), fun _ => ⟨?_, by simp [he]⟩⟩
        rintro ⟨e', h1, h2⟩
        rw [he] at h1
        cases h1
        exact hc h2

end

/-- The errors of the normalised data, order by order. -/
def Stat.errors (s : Stat Q F ι) (smooth : (ι → F) → Option Q) (n : ℕ) : Option Q := smooth fun i => s.value n i

theorem Stat.value_eq (s : Stat Q F ι) (n : ℕ) (i : ι) : (1 / s.normAccu * s.norm) • s.accu n i = s.value (n + 1) i := by
  unfold Stat.value
  rw [Nat.add_sub_cancel, one_div, inv_mul_eq_div]

/-- **C61**: the new function is the sum of the measured functions of orders `1` to `k`; all these orders passed, and the next one, if
there is one, did not. Partial: an order without data is judged by the error of the order before (`C61_refuted_empty`). -/
theorem C61_accepted_partial (s : Stat Q F ι) (smooth : (ι → F) → Option Q) (threshold : Q) (before : ℕ) {f : ι → F} {k : ℕ}
    (h : s.update smooth threshold before = .done (f, k)) :
    1 / 1000 ≤ |s.normAccu| ∧ k ≤ s.orders ∧ (∀ i, f i = ∑ n ∈ Finset.range k, s.value (n + 1) i) ∧
      (∀ n, 1 ≤ n → n ≤ k → Passes (s.errors smooth) threshold before n) ∧
      (k < s.orders → ¬ Passes (s.errors smooth) threshold before (k + 1)) := by
  unfold Stat.update at h
  split_ifs at h with h1 h2
  simp only [Stat.value_eq] at h
  have he : (fun n => smooth fun i => s.value (n - 1 + 1) i) = fun n => s.errors smooth (n - 1 + 1) := rfl
  have key := accepted_spec (fun n => s.errors smooth (n - 1 + 1)) threshold before s.orders 1 le_rfl (by omega)
  have hj : ∀ n, judged (fun n => s.errors smooth (n - 1 + 1)) n = judged (s.errors smooth) n := by
    intro n
    induction n with
    | zero => rfl
    | succ n ih => simp only [judged, ih, Nat.add_sub_cancel]
  have hp : ∀ n, Passes (fun n => s.errors smooth (n - 1 + 1)) threshold before n ↔ Passes (s.errors smooth) threshold before n :=
    fun n => by unfold Passes; rw [hj]
  rw [he] at h
  simp only [Nat.sub_self] at key
  change (∀ k, Stat.accepted _ threshold before none s.orders 1 = some k → _) ∧ _ at key
  cases hk : Stat.accepted (fun n => s.errors smooth (n - 1 + 1)) threshold before none s.orders 1 with
  | none => rw [hk] at h; simp at h
  | some k' =>
    rw [hk] at h
    simp only [Stat.Update.done.injEq, Prod.mk.injEq] at h
    obtain ⟨rfl, rfl⟩ := h
    obtain ⟨a, b, c, d⟩ := key.1 k' hk
    refine ⟨not_lt.1 h1, by omega, fun i => rfl, fun n q1 q2 => (hp n).1 (c n q1 q2), fun q => ?_⟩
    rw [← hp]
    exact (d (by omega)).1

/-- **C61**: an order that was accepted once stays accepted, as long as it is measured. -/
theorem C61_monotone (s : Stat Q F ι) (smooth : (ι → F) → Option Q) (threshold : Q) (before : ℕ) {f : ι → F} {k : ℕ}
    (h : s.update smooth threshold before = .done (f, k)) : min before s.orders ≤ k := by
  obtain ⟨-, h1, -, h2, h3⟩ := C61_accepted_partial s smooth threshold before h
  by_contra hc
  have hk : k < s.orders := by omega
  refine h3 hk ?_
  rcases Nat.eq_zero_or_pos k with h0 | h0
  · subst h0
    unfold Stat.update at h
    split_ifs at h with a b
    simp only [Stat.value_eq] at h
    obtain ⟨m, hm⟩ : ∃ m, s.orders = m + 1 := ⟨s.orders - 1, by omega⟩
    rw [hm] at h
    unfold Stat.accepted at h
    cases he : s.errors smooth 1 with
    | none =>
      have : (smooth fun i => s.value (1 - 1 + 1) i) = none := he
      rw [this] at h
      simp at h
    | some e => exact ⟨e, by simp [judged, he], .inr (by omega)⟩
  · obtain ⟨e, he, -⟩ := h2 k h0 le_rfl
    cases hn : s.errors smooth (k + 1) with
    | none => exact ⟨e, by simp [judged, hn, he], .inr (by omega)⟩
    | some e' => exact ⟨e', by simp [judged, hn], .inr (by omega)⟩

/-- **C61**: without normalisation there is a failure that the self consistency loop handles, and the loop never gets functions of which
no order was accepted. -/
theorem C61_refused (c : Collected Q F ι κ) (smoothS : (ι → F) → Option Q) (smoothP : (κ → F) → Option Q) (threshold : Q)
    (before : ℕ × ℕ) {s : Stat Q F ι} {p : Stat Q F κ} (hs : c.sigma = some s) (hp : c.polar = some p) :
    (|s.normAccu| < 1 / 1000 → updateWeights c smoothS smoothP threshold before = .failure) ∧
    ∀ f g a b, updateWeights c smoothS smoothP threshold before = .done (f, g, a, b) →
      s.update smoothS threshold before.1 = .done (f, a) ∧ p.update smoothP threshold before.2 = .done (g, b) ∧ 1 ≤ a ∧ 1 ≤ b := by
  constructor
  · intro h
    have h1 : s.update smoothS threshold before.1 = .failure := if_pos h
    simp [updateWeights, hs, h1]
  · intro f g a b h
    simp only [updateWeights, hs, hp] at h
    cases h1 : s.update smoothS threshold before.1 with
    | failure => rw [h1] at h; simp at h
    | crash => rw [h1] at h; simp at h
    | done x =>
      rw [h1] at h
      cases h2 : p.update smoothP threshold before.2 with
      | failure => rw [h2] at h; simp at h
      | crash => rw [h2] at h; simp at h
      | done y =>
        rw [h2] at h
        simp only at h
        split_ifs at h with h3
        simp only [Stat.Update.done.injEq, Prod.mk.injEq] at h
        obtain ⟨rfl, rfl, rfl, rfl⟩ := h
        exact ⟨rfl, rfl, by omega, by omega⟩

/-- **C61**, when the update ends the self consistency loop instead: exactly if nothing was measured at order one (all data close to
zero), or there are no orders. -/
theorem C61_crash (s : Stat Q F ι) (smooth : (ι → F) → Option Q) (threshold : Q) (before : ℕ) (hn : 1 / 1000 ≤ |s.normAccu|) :
    s.update smooth threshold before = .crash ↔ s.orders = 0 ∨ s.errors smooth 1 = none := by
  have step : ∀ left n e, Stat.accepted (fun n => smooth fun i => s.value (n - 1 + 1) i) threshold before (some e) left n ≠ none := by
    intro left
    induction left with
    | zero => intro n e; simp [Stat.accepted]
    | succ left ih =>
      intro n e
      unfold Stat.accepted
      cases hx : (smooth fun i => s.value (n - 1 + 1) i) with
      | none =>
        simp only [Option.none_or]
        split_ifs
        · exact ih _ _
        · simp
      | some e' =>
        simp only [Option.some_or]
        split_ifs
        · exact ih _ _
        · simp
  unfold Stat.update
  rw [if_neg (not_lt.2 hn)]
  simp only [Stat.value_eq]
  by_cases h0 : s.orders = 0
  · simp [h0]
  · rw [if_neg h0]
    obtain ⟨m, hm⟩ : ∃ m, s.orders = m + 1 := ⟨s.orders - 1, by omega⟩
    rw [hm]
    unfold Stat.accepted
    cases he : s.errors smooth 1 with
    | none =>
      have : (smooth fun i => s.value (1 - 1 + 1) i) = none := he
      simp [this]
    | some e =>
      have : (smooth fun i => s.value (1 - 1 + 1) i) = some e := he
      simp only [this, Option.some_or]
      by_cases hc : e < threshold ∨ 1 ≤ before
      · simp only [if_pos hc]
        cases hk : Stat.accepted (fun n => smooth fun i => s.value (n - 1 + 1) i) threshold before (some e) m (1 + 1) with
        | none => exact absurd hk (step _ _ _)
        | some k => simp
      · simp [if_neg hc]

/-- Error of a function of one cell: its size, unless it is zero. -/
def sizeError (f : Unit → ℚ) : Option ℚ := if f () = 0 then none else some |f ()|

/-- Data of three orders with the given values. -/
def threeOrders (a b c : ℚ) : Stat ℚ ℚ Unit := ⟨1, 1, 3, fun n _ => if n = 0 then a else if n = 1 then b else c⟩

/-- Result of an update, if there is one. -/
def Stat.Update.get {α : Type} : Stat.Update α → Option α
  | .done a => some a
  | _ => none

/-- C61 on a case: with the threshold 5 the first two orders are accepted. -/
example : ((threeOrders 1 2 7).update sizeError 5 1).get.map (fun r => (r.1 (), r.2)) = some (3, 2) := by decide +kernel

/-- C61 on a case: an order with large error was accepted before. -/
example : ((threeOrders 1 9 7).update sizeError 5 2).get.map (fun r => (r.1 (), r.2)) = some (10, 2) := by decide +kernel

/-- An order without any data passes by the error of the order before it, so the accepted order does not tell that it was measured. -/
theorem C61_refuted_empty :
    ((threeOrders 1 0 0).update sizeError 5 0).get.map (fun r => (r.1 (), r.2)) = some (1, 3) := by decide +kernel

end Feyn
