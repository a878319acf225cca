import Verif.Proof.StatTimes

/-! The flow between two states is the same in both directions. -/

namespace Feyn

set_option linter.unusedSectionVars false
set_option linter.unusedSimpArgs false

section
variable {Q F : Type} [Field Q] [LinearOrder Q] [IsStrictOrderedRing Q] [Field F]
variable {P : Params Q F} {d d' d₁ d₂ e : Diag Q F} {σ : Ren}

theorem SameUpToCells.symm (s : SameUpToCells d d') (hi : Inv P d) : SameUpToCells d' d := by
  obtain ⟨fV, fG, fW, s⟩ := s
  obtain ⟨ρ, s, lV, lG, lW⟩ := s.perm hi
  have T := hi.topo
  have bij : ∀ {π : Equiv.Perm ℕ} {A B : Finset ℕ}, (∀ p, π p ∈ B ↔ p ∈ A) → Set.BijOn π.symm B A := by
    intro π A B h
    refine ⟨fun p hp => ?_, π.symm.injective.injOn, fun p hp => ⟨π p, (h p).2 hp, π.symm_apply_apply p⟩⟩
    have hp : p ∈ B := hp
    rw [← π.apply_symm_apply p] at hp
    exact (h _).1 hp
  have pre : ∀ {π : Equiv.Perm ℕ} {A B : Finset ℕ}, (∀ p, π p ∈ B ↔ p ∈ A) → ∀ q ∈ B, ∃ p ∈ A, π p = q := by
    intro π A B h q hq
    refine ⟨π.symm q, ?_, π.apply_symm_apply q⟩
    rw [← π.apply_symm_apply q] at hq
    exact (h _).1 hq
  refine ⟨ρ.V.symm, ρ.G.symm, ρ.W.symm, {
    order := s.order.symm
    weight := s.weight.symm
    phase := s.phase.symm
    sfl := s.sfl.symm
    ver := bij lV
    g := bij lG
    w := bij lW
    nVer := s.nVer.symm
    nG := s.nG.symm
    nW := s.nW.symm
    vG := fun v hv e => ?_
    vW := fun v hv => ?_
    vDir := fun v hv => ?_
    gV := fun v hv e => ?_
    wV := fun v hv e => ?_
    co := fun ho v hv => ?_
    gWt := fun ho v hv => ?_
    wWt := fun ho v hv => ?_
    gK := fun v hv => ?_
    wK := fun v hv => ?_
    gHash := s.gHash.symm
    wHash := s.wHash.symm
    gFl := fun v hv => ?_
    wFl := fun v hv => ?_
    exist := s.exist.symm
    worm := fun he => ?_
    measG := s.measG.symm
    gMeasure := fun he => ?_
    wMeasure := fun he => ?_
    hasGamma := s.hasGamma.symm
    ext := fun he => (s.ext (s.hasGamma ▸ he)).symm }⟩
  · obtain ⟨p, hp, rfl⟩ := pre lV v hv
    rw [s.vG p hp, Equiv.symm_apply_apply, Equiv.symm_apply_apply]
  · obtain ⟨p, hp, rfl⟩ := pre lV v hv
    rw [s.vW p hp, Equiv.symm_apply_apply, Equiv.symm_apply_apply]
  · obtain ⟨p, hp, rfl⟩ := pre lV v hv
    rw [s.vDir p hp, Equiv.symm_apply_apply]
  · obtain ⟨p, hp, rfl⟩ := pre lG v hv
    rw [s.gV p hp, Equiv.symm_apply_apply, Equiv.symm_apply_apply]
  · obtain ⟨p, hp, rfl⟩ := pre lW v hv
    rw [s.wV p hp, Equiv.symm_apply_apply, Equiv.symm_apply_apply]
  · obtain ⟨p, hp, rfl⟩ := pre lV v hv
    obtain ⟨a, b, c⟩ := s.co (s.order ▸ ho) p hp
    rw [Equiv.symm_apply_apply, a, b, c]
    exact ⟨rfl, rfl, rfl⟩
  · obtain ⟨p, hp, rfl⟩ := pre lG v hv
    rw [Equiv.symm_apply_apply, s.gWt (s.order ▸ ho) p hp]
  · obtain ⟨p, hp, rfl⟩ := pre lW v hv
    rw [Equiv.symm_apply_apply, s.wWt (s.order ▸ ho) p hp]
  · obtain ⟨p, hp, rfl⟩ := pre lG v hv
    rw [Equiv.symm_apply_apply, s.gK p hp]
  · obtain ⟨p, hp, rfl⟩ := pre lW v hv
    rw [Equiv.symm_apply_apply, s.wK p hp]
  · obtain ⟨p, hp, rfl⟩ := pre lG v hv
    obtain ⟨a, b⟩ := s.gFl p hp
    rw [Equiv.symm_apply_apply, a, b]
    exact ⟨rfl, rfl⟩
  · obtain ⟨p, hp, rfl⟩ := pre lW v hv
    obtain ⟨a, b, c, d⟩ := s.wFl p hp
    rw [Equiv.symm_apply_apply, a, b, c, d]
    exact ⟨rfl, rfl, rfl, rfl⟩
  · obtain ⟨a, b, c, d, f⟩ := s.worm (s.exist ▸ he)
    rw [a, b, c, d, f, Equiv.symm_apply_apply, Equiv.symm_apply_apply]
    exact ⟨rfl, rfl, rfl, rfl, rfl⟩
  · rw [s.gMeasure (s.measG ▸ he), Equiv.symm_apply_apply]
  · rw [s.wMeasure (s.measG ▸ he), Equiv.symm_apply_apply]

theorem Move.chance_act (S : Alike BSet σ d d') (m : Move Q) : (m.act σ).chance P d' = m.chance P d := by
  have h1 := S.bW.avail
  have h2 := S.bG.avail
  have h3 := S.bV.avail
  cases m <;> simp only [Move.act, Move.chance, Move.density, Move.times, h1, h2, h3]

theorem chance_pos (hP : P.Wf) (h : Inv P d) (m : Move Q) : 0 < m.chance P d := by
  have : 0 < timeStep P := div_pos hP.beta_pos (by norm_num)
  exact mul_pos (density_pos hP h m) (pow_pos this _)

theorem stateWeight_pos (hP : P.Wf) (hf : PosFactors P) (h : Inv P d) : 0 < stateWeight P d := by
  have : 0 < timeStep P := div_pos hP.beta_pos (by norm_num)
  exact mul_pos (target_pos hP hf h) (pow_pos this _)

/-- At order 0 only the jump to order 1 can be accepted. -/
theorem Move.of_zero (hi : Inv P d) (h0 : d.order = 0) {m : Move Q} {u : Q} {out : Out Q F} (er : m.run P d u = .ok out)
    (ha : out.tag = .accept) : ∃ r t1 t2 s1 s2, m = .backToOrder1 r t1 t2 s1 s2 := by
  have hw : d.worm.exist = false := by
    rcases hi.count.order with c | c
    · have := hi.count.n_pos; omega
    · exact c.2.2.1
  have hsk := not_skip er ha
  cases m
  case backToOrder1 r t1 t2 s1 s2 => exact ⟨r, t1, t2, s1, s2, rfl⟩
  all_goals exact absurd (by simp [Move.run, h0, hw]) hsk

section
attribute [local irreducible] metropolis

theorem delCore_order {δ : Bool} {dir : Dir} {u : Q} : (delCore P d δ dir u).All (Acc fun d' => d'.order = d.order - 1) := by
  unfold delCore
  peelA
  rfl

end

/-- Only the jump to order 0 leads to order 0. -/
theorem Move.to_zero (hP : P.Wf) (hi : Inv P d) {m : Move Q} {u : Q} {out : Out Q F} (er : m.run P d u = .ok out) (ha : out.tag = .accept)
    (h0 : out.d.order = 0) : m = .toOrder0 := by
  by_cases hd : d.order = 0
  · obtain ⟨r, t1, t2, s1, s2, rfl⟩ := Move.of_zero hi hd er ha
    have := (back_count (P := P) (d := d) u _ er ha).1
    omega
  have calm : ¬ m.Calm := fun hc => hd (by
    have := (Move.count (P := P) (d := d) hc u _ er ha).1.1
    rw [← this, h0])
  cases m <;> simp only [Move.Calm, not_true_eq_false] at calm
  case toOrder0 => rfl
  case add =>
    simp only [Move.run] at er
    split_ifs at er with c1 c2
    · exact (skip_not_accept er ha).elim
    · exact (skip_not_accept er ha).elim
    obtain ⟨w, -, -, q, -⟩ := addCore_count hP hi (by omega) (by omega) _ er ha
    omega
  case del =>
    simp only [Move.run] at er
    split_ifs at er with c1 c2
    · exact (skip_not_accept er ha).elim
    · exact (skip_not_accept er ha).elim
    have := delCore_order (P := P) (d := d) _ er ha
    omega
  case delta2cont w t =>
    exfalso
    simp only [Move.run] at er
    split_ifs at er with c1
    · exact (skip_not_accept er ha).elim
    have : ((delta2contCore P d w t u).All (Acc fun d' => d'.order = d.order)) := by
      unfold delta2contCore
      refine Res.all_bind fun _ _ => Res.all_ite (fun _ => acc_skip) fun _ => ?_
      exact acc_mono deltaCore_count fun _ a => a.2.1
    have := this _ er ha
    omega
  case cont2delta w =>
    exfalso
    simp only [Move.run] at er
    split_ifs at er with c1
    · exact (skip_not_accept er ha).elim
    have : ((cont2deltaCore P d w u).All (Acc fun d' => d'.order = d.order)) := by
      unfold cont2deltaCore
      refine Res.all_bind fun _ _ => Res.all_ite (fun _ => acc_skip) fun _ => ?_
      refine Res.all_bind fun _ _ => Res.all_bind fun _ _ => ?_
      exact acc_mono deltaCore_count fun _ a => a.2.1
    have := this _ er ha
    omega
  case backToOrder1 r t1 t2 s1 s2 =>
    have := (back_count (P := P) (d := d) u _ er ha).1
    omega

/-- A move from `d` to `e` and the move from `e` to `d` that undoes it. -/
structure Partner (P : Params Q F) (d e d₁ : Diag Q F) (m n : Move Q) (a a' : Q) (e₁ : Diag Q F) : Prop where
  mem : n ∈ allMoves P e
  acc : n.accepted P e = some (a', e₁)
  same : SameUpToCells e₁ d
  flow : stateWeight P d * (m.chance P d * a) = stateWeight P e * (n.chance P e * a')
  rev : d₁.order ≠ 0 → d.order ≠ 0 → ∃ σ : Ren, Alike BSet σ d₁ e ∧ n.rev e = m.act σ

theorem min_flip {p : Q} (hp : 0 < p) : min 1 p = p * min 1 p⁻¹ := by
  rcases le_total 1 p with h | h
  · rw [min_eq_left h, min_eq_right (inv_le_one_of_one_le₀ h), mul_inv_cancel₀ hp.ne']
  · rw [min_eq_right h, min_eq_left ((one_le_inv₀ hp).2 h), mul_one]

theorem exists_partner (hP : P.Wf) (hf : PosFactors P) (gd : GoodState P d) (ge : GoodState P e) {m : Move Q}
    (hm : m ∈ allMoves P d) {a : Q} (hacc : m.accepted P d = some (a, d₁)) (hs : SameUpToCells d₁ e) :
    ∃ n a' e₁, Partner P d e d₁ m n a a' e₁ := by
  obtain ⟨hv, ht⟩ := (mem_allMoves hP).1 hm
  obtain ⟨out, er, ha, rfl, rfl, ha0⟩ := accepted_ex hacc
  obtain ⟨v, rr, ⟨d'', pr, s⟩, hb⟩ := Move.bal hP hf gd.inv gd.wormSpin gd.site (fun _ => gd.delta) hv le_rfl er ha
  have hi₁ : Inv P out.d := by
    obtain ⟨o', e', hi, -⟩ := Move.good hP gd.inv hv (le_refl (0 : Q))
    rw [er] at e'; cases e'; exact hi
  have hp : 0 < out.prob := (lt_min_iff.1 ha0).2
  have er' := (pr 0).1 (Or.inr (inv_pos.2 hp))
  have hi'' : Inv P d'' := by
    obtain ⟨o', e', hi, -⟩ := Move.good hP hi₁ v (le_refl (0 : Q))
    rw [er'] at e'; cases e'; exact hi
  have tm := Move.rev_times gd.inv gd.grid hv er ha
  have z1 : out.d.order = 0 → NoDelta out.d := by
    intro q w hw
    obtain ⟨fV, fG, fW, s⟩ := hs
    rw [← (s.wFl w hw).2.2.1]
    exact ge.zero (s.order.trans q) _ (s.w.mapsTo hw)
  have hfree := Move.free hP hf gd.inv gd.wormSpin gd.site gd.delta hv le_rfl er ha gd.zero z1
  have flow : ∀ n : Move Q, n.chance P e = (m.rev d).chance P out.d →
      stateWeight P d * (m.chance P d * min 1 out.prob) = stateWeight P e * (n.chance P e * min 1 (out.prob)⁻¹) := by
    intro n hn
    rw [hn, hs.stateWeight, min_flip hp]
    unfold stateWeight Move.chance
    have : timeStep P ^ freeTimes d * timeStep P ^ m.times = timeStep P ^ freeTimes out.d * timeStep P ^ (m.rev d).times := by
      rw [← pow_add, ← pow_add, hfree]
    calc _ = (out.prob * (target P d * m.density P d)) * (timeStep P ^ freeTimes d * timeStep P ^ m.times) * min 1 out.prob⁻¹ := by ring
      _ = (target P out.d * (m.rev d).density P out.d) * (timeStep P ^ freeTimes out.d * timeStep P ^ (m.rev d).times)
          * min 1 out.prob⁻¹ := by rw [hb, this]
      _ = _ := by ring
  by_cases h0 : d.order = 0
  · obtain ⟨r, t1, t2, s1, s2, rfl⟩ := Move.of_zero gd.inv h0 er ha
    obtain ⟨f1, out', f2, f3, f4, f5⟩ := toOrder0_transfer hP hi₁ ge.inv hs v le_rfl er' rfl
    refine ⟨.toOrder0, _, _, (mem_allMoves hP).2 ⟨f1, trivial⟩, accepted_run f2 f3, (s.trans f5).symm gd.inv, ?_,
      fun _ q => absurd h0 q⟩
    rw [f4]
    exact flow _ rfl
  by_cases h1 : out.d.order = 0
  · obtain rfl := Move.to_zero hP gd.inv er ha h1
    rcases back_transfer hP hi₁ ge.inv hs v le_rfl er' rfl with ⟨f1, out', f2, f3, f4, f5⟩ | ⟨f1, out', f2, f3, f4, f5⟩
    · refine ⟨_, _, _, (mem_allMoves hP).2 ⟨f1, tm⟩, accepted_run f2 f3, (s.trans f5).symm gd.inv, ?_, fun q => absurd h1 q⟩
      rw [f4]
      exact flow _ rfl
    · refine ⟨_, _, _, (mem_allMoves hP).2 ⟨f1, tm.2, tm.1⟩, accepted_run f2 f3, (s.trans f5).symm gd.inv, ?_,
        fun q => absurd h1 q⟩
      rw [f4]
      exact flow _ rfl
  have o0 : (m.rev d).op ≠ .toOrder0 := by
    intro q
    have : m.rev d = .toOrder0 := by
      revert q
      generalize m.rev d = m'
      cases m' <;> simp [Move.op] <;> split_ifs <;> simp
    rw [this] at er'
    exact h0 (by rw [← (toOrder0_count (P := P) (d := out.d) 0 _ er' rfl).1]; obtain ⟨_, _, _, s⟩ := s; exact s.order.symm)
  have o1 : (m.rev d).op ≠ .backToOrder1 := by
    intro q
    obtain ⟨r, t1, t2, s1, s2, this⟩ : ∃ r t1 t2 s1 s2, m.rev d = .backToOrder1 r t1 t2 s1 s2 := by
      revert q
      generalize m.rev d = m'
      cases m' <;> simp [Move.op] <;> split_ifs <;> simp
    rw [this] at er'
    exact h1 (back_count (P := P) (d := out.d) 0 _ er' rfl).2.2.2.2
  obtain ⟨ρ, S⟩ := hs.alike hi₁ ge.inv h1
  obtain ⟨σ, S', hr⟩ := Move.run_sim hP hi₁ S v o0 o1 0
  rw [er'] at hr
  obtain ⟨out', e', g1, g2, g3⟩ := hr.of_ok
  refine ⟨(m.rev d).act σ, _, _, (mem_allMoves hP).2 ⟨Move.act_valid v S', ?_⟩, accepted_run e' g1,
    (s.trans ⟨_, _, _, g3.same'⟩).symm gd.inv, ?_, fun _ _ => ⟨σ, S', ?_⟩⟩
  · revert tm
    generalize m.rev d = m'
    cases m' <;> exact id
  · rw [g2]
    exact flow _ (Move.chance_act S' _)
  · rw [Move.rev_act hi₁ S' v er' rfl o0, rr]

/-- The jump from order 0 is determined by where it leads. -/
theorem back_unique (hP : P.Wf) (hi : Inv P d) {r r' : Site} {t1 t2 t1' t2' : Q} {s1 s2 s1' s2' : Spin} {u : Q}
    {o₁ o₂ : Out Q F} (e1 : (Move.backToOrder1 r t1 t2 s1 s2).run P d u = .ok o₁) (a1 : o₁.tag = .accept)
    (e2 : (Move.backToOrder1 r' t1' t2' s1' s2').run P d u = .ok o₂) (a2 : o₂.tag = .accept)
    (x1 : SameUpToCells o₁.d e) (x2 : SameUpToCells o₂.d e) :
    Move.backToOrder1 r t1 t2 s1 s2 = Move.backToOrder1 r' t1' t2' s1' s2' := by
  by_cases hc : d.hasGamma = 0 ∧ d.worm.exist = false ∧ d.order = 0
  swap
  · rw [back_skip hc] at e1; exact absurd a1 (fun q => skip_not_accept e1 q)
  have hn : d.W.avail = 1 := by
    have := hi.count.n_pos
    rcases hi.count.order with q | q
    · omega
    · exact q.2.1
  have f1 := Move.frame (P := P) (d := d) (m := .backToOrder1 r t1 t2 s1 s2) trivial u _ e1 a1
  have f2 := Move.frame (P := P) (d := d) (m := .backToOrder1 r' t1' t2' s1' s2') trivial u _ e2 a2
  obtain ⟨R, wt, ph, -, er⟩ := back_run (P := P) (r := r) (t1 := t1) (t2 := t2) (s1 := s1) (s2 := s2) hP hi hc
  obtain ⟨R', wt', ph', -, er'⟩ := back_run (P := P) (r := r') (t1 := t1') (t2 := t2') (s1 := s1') (s2 := s2') hP hi hc
  rw [er] at e1
  rw [er'] at e2
  obtain ⟨-, q, -⟩ := metropolis_accept e1 a1
  obtain ⟨-, q', -⟩ := metropolis_accept e2 a2
  obtain ⟨h1, h2, hne, -, -⟩ := hi.pair hn
  obtain ⟨fV, fG, fW, y1⟩ := x1
  obtain ⟨fV', fG', fW', y2⟩ := x2
  obtain ⟨-, hV, -⟩ := names_unique hi f1 f2 y1 y2
  have agree : ∀ v ∈ d.Ver.live, fV v = fV' v := by
    intro v hv
    obtain ⟨v', hv', z⟩ := y2.ver.surjOn (y1.ver.mapsTo (show v ∈ o₁.d.Ver.live by rw [f1.2.1]; exact hv))
    have hv' : v' ∈ o₂.d.Ver.live := hv'
    rw [f2.2.1] at hv'
    rw [hV v hv v' hv' z.symm, z]
    exact congrArg fV (hV v hv v' hv' z.symm).symm
  have co : ∀ v ∈ d.Ver.live, o₁.d.co.r v = o₂.d.co.r v ∧ o₁.d.co.tau v = o₂.d.co.tau v ∧ o₁.d.co.spin v = o₂.d.co.spin v := by
    intro v hv
    obtain ⟨a, b, c⟩ := y1.co (by rw [q]; exact one_ne_zero) v (by rw [f1.2.1]; exact hv)
    obtain ⟨a', b', c'⟩ := y2.co (by rw [q']; exact one_ne_zero) v (by rw [f2.2.1]; exact hv)
    rw [agree v hv] at a b c
    exact ⟨a.symm.trans a', b.symm.trans b', c.symm.trans c'⟩
  obtain ⟨⟨c1, c2, c3⟩, -, c5, -⟩ := setOne_at (r := r) (t1 := t1) (t2 := t2) (s1 := s1) (s2 := s2) hne
  obtain ⟨⟨c1', c2', c3'⟩, -, c5', -⟩ := setOne_at (r := r') (t1 := t1') (t2 := t2') (s1 := s1') (s2 := s2') hne
  have w0 := co _ h1
  have w1 := co _ h2
  rw [q, q'] at w0 w1
  have k1 : r = r' := c1.symm.trans (w0.1.trans c1')
  have k2 : t1 = t1' := c2.symm.trans (w0.2.1.trans c2')
  have k3 : t2 = t2' := c5.symm.trans (w1.2.1.trans c5')
  have k4 : (fun e => if e = OUT then s1 else s2) = (fun e => if e = OUT then s1' else s2') := c3.symm.trans (w0.2.2.trans c3')
  have k5 : s1 = s1' := by simpa using congrFun k4 OUT
  have k6 : s2 = s2' := by simpa using congrFun k4 IN
  rw [k1, k2, k3, k5, k6]

/-- Different moves are undone by different moves. -/
theorem partner_inj (hP : P.Wf) (gd : GoodState P d) {m₁ m₂ n : Move Q} (hm₁ : m₁ ∈ allMoves P d) (hm₂ : m₂ ∈ allMoves P d)
    {a₁ a₂ b₁ b₂ : Q} (acc₁ : m₁.accepted P d = some (a₁, d₁)) (acc₂ : m₂.accepted P d = some (a₂, d₂))
    (s₁ : SameUpToCells d₁ e) (s₂ : SameUpToCells d₂ e) {e₁ e₂ : Diag Q F}
    (p₁ : Partner P d e d₁ m₁ n a₁ b₁ e₁) (p₂ : Partner P d e d₂ m₂ n a₂ b₂ e₂) : m₁ = m₂ := by
  obtain ⟨v₁, -⟩ := (mem_allMoves hP).1 hm₁
  obtain ⟨v₂, -⟩ := (mem_allMoves hP).1 hm₂
  obtain ⟨o₁, er₁, ha₁, -, rfl, -⟩ := accepted_ex acc₁
  obtain ⟨o₂, er₂, ha₂, -, rfl, -⟩ := accepted_ex acc₂
  by_cases h0 : d.order = 0
  · obtain ⟨r, t1, t2, s1, s2, rfl⟩ := Move.of_zero gd.inv h0 er₁ ha₁
    obtain ⟨r', t1', t2', s1', s2', rfl⟩ := Move.of_zero gd.inv h0 er₂ ha₂
    exact back_unique hP gd.inv er₁ ha₁ er₂ ha₂ s₁ s₂
  have ho : o₁.d.order = o₂.d.order := by
    obtain ⟨_, _, _, x⟩ := s₁
    obtain ⟨_, _, _, y⟩ := s₂
    exact x.order.symm.trans y.order
  by_cases h1 : o₁.d.order = 0
  · rw [Move.to_zero hP gd.inv er₁ ha₁ h1, Move.to_zero hP gd.inv er₂ ha₂ (ho ▸ h1)]
  obtain ⟨σ₁, S₁, r₁⟩ := p₁.rev h1 h0
  obtain ⟨σ₂, S₂, r₂⟩ := p₂.rev (ho ▸ h1) h0
  have key : m₁.act σ₁ = m₂.act σ₂ := r₁.symm.trans r₂
  have hk : m₁.Keeps → m₂.Keeps →
      (∀ g ∈ d.G.live, ∀ g' ∈ d.G.live, σ₁.G g = σ₂.G g' → g = g') ∧
      (∀ v ∈ d.Ver.live, ∀ v' ∈ d.Ver.live, σ₁.V v = σ₂.V v' → v = v') ∧
      (∀ w ∈ d.W.live, ∀ w' ∈ d.W.live, σ₁.W w = σ₂.W w' → w = w') := fun k1 k2 =>
    names_unique gd.inv (Move.frame k1 _ _ er₁ ha₁) (Move.frame k2 _ _ er₂ ha₂) S₁.same' S₂.same'
  cases m₁ <;> cases m₂ <;> simp only [Move.act, reduceCtorEq, Move.createWorm.injEq, Move.changeTau.injEq,
    Move.changeRLoop.injEq, Move.g2w.injEq, Move.w2g.injEq, Move.delta2cont.injEq, Move.cont2delta.injEq,
    Move.toGGGammaG.injEq, Move.toWWGammaW.injEq] at key ⊢
  case createWorm.createWorm => exact ⟨(hk trivial trivial).2.2 _ v₁.2.1 _ v₂.2.1 key.1, key.2⟩
  case changeTau.changeTau => exact ⟨(hk trivial trivial).2.1 _ v₁.2.1 _ v₂.2.1 key.1, key.2⟩
  case changeRLoop.changeRLoop => exact ⟨(hk trivial trivial).2.1 _ v₁.2.1 _ v₂.2.1 key.1, key.2⟩
  case g2w.g2w => exact (hk trivial trivial).2.2 _ v₁.2 _ v₂.2 key
  case w2g.w2g => exact (hk trivial trivial).1 _ v₁.2 _ v₂.2 key
  case delta2cont.delta2cont => exact ⟨(hk trivial trivial).2.2 _ v₁.2.1 _ v₂.2.1 key.1, key.2⟩
  case cont2delta.cont2delta => exact (hk trivial trivial).2.2 _ v₁.2 _ v₂.2 key
  case toGGGammaG.toGGGammaG => exact ⟨(hk trivial trivial).1 _ v₁.2.1 _ v₂.2.1 key.1, key.2⟩
  case toWWGammaW.toWWGammaW => exact ⟨(hk trivial trivial).2.2 _ v₁.2.1 _ v₂.2.1 key.1, key.2⟩
  all_goals exact key

theorem flow_nonneg (hP : P.Wf) (h : Inv P d) (m : Move Q) : 0 ≤ m.flow P d e := by
  unfold Move.flow
  split
  · next a d' ha =>
    obtain ⟨-, -, -, -, -, h0⟩ := accepted_ex ha
    split_ifs
    · exact (mul_pos (chance_pos hP h m) h0).le
    · exact le_rfl
  · exact le_rfl

theorem flow_some {m : Move Q} {a : Q} (ha : m.accepted P d = some (a, d')) (s : SameUpToCells d' e) :
    m.flow P d e = m.chance P d * a := by
  unfold Move.flow
  rw [ha]
  exact if_pos s

theorem flow_ne {m : Move Q} (h : m.flow P d e ≠ 0) : ∃ a d', m.accepted P d = some (a, d') ∧ SameUpToCells d' e := by
  unfold Move.flow at h
  split at h
  · next a d' ha =>
    by_cases s : SameUpToCells d' e
    · exact ⟨a, d', ha, s⟩
    · rw [if_neg s] at h; exact absurd rfl h
  · exact absurd rfl h

open Classical in
theorem goes_le (hP : P.Wf) (hf : PosFactors P) (gd : GoodState P d) (ge : GoodState P e) :
    stateWeight P d * goes P d e ≤ stateWeight P e * goes P e d := by
  unfold goes
  rw [Finset.mul_sum, Finset.mul_sum]
  have key : ∀ m : Move Q, ∃ n : Move Q, m ∈ allMoves P d → m.flow P d e ≠ 0 →
      ∃ a d₁ a' e₁, m.accepted P d = some (a, d₁) ∧ SameUpToCells d₁ e ∧ Partner P d e d₁ m n a a' e₁ := by
    intro m
    by_cases hm : m ∈ allMoves P d
    · by_cases hz : m.flow P d e ≠ 0
      · obtain ⟨a, d₁, h1, h2⟩ := flow_ne hz
        obtain ⟨n, a', e₁, h3⟩ := exists_partner hP hf gd ge hm h1 h2
        exact ⟨n, fun _ _ => ⟨a, d₁, a', e₁, h1, h2, h3⟩⟩
      · exact ⟨m, fun _ h => absurd h hz⟩
    · exact ⟨m, fun h => absurd h hm⟩
  choose f hf' using key
  set A := (allMoves P d).filter fun m => m.flow P d e ≠ 0 with hA
  have hsub : ∑ m ∈ allMoves P d, stateWeight P d * m.flow P d e = ∑ m ∈ A, stateWeight P d * m.flow P d e := by
    rw [hA, Finset.sum_filter_of_ne]
    intro m _ h q
    rw [q, mul_zero] at h
    exact h rfl
  have hinj : Set.InjOn f A := by
    intro m₁ h₁ m₂ h₂ q
    obtain ⟨h₁, z₁⟩ := Finset.mem_filter.1 h₁
    obtain ⟨h₂, z₂⟩ := Finset.mem_filter.1 h₂
    obtain ⟨a, d₁, a', e₁, x1, x2, x3⟩ := hf' m₁ h₁ z₁
    obtain ⟨b, d₂, b', e₂, y1, y2, y3⟩ := hf' m₂ h₂ z₂
    rw [q] at x3
    exact partner_inj hP gd h₁ h₂ x1 y1 x2 y2 x3 y3
  have hterm : ∀ m ∈ A, stateWeight P d * m.flow P d e = stateWeight P e * (f m).flow P e d := by
    intro m h₁
    obtain ⟨h₁, z₁⟩ := Finset.mem_filter.1 h₁
    obtain ⟨a, d₁, a', e₁, x1, x2, x3⟩ := hf' m h₁ z₁
    rw [flow_some x1 x2, flow_some x3.acc x3.same, x3.flow]
  rw [hsub, Finset.sum_congr rfl hterm, ← Finset.sum_image (f := fun n => stateWeight P e * n.flow P e d) hinj]
  refine Finset.sum_le_sum_of_subset_of_nonneg ?_ fun n _ _ =>
    mul_nonneg (stateWeight_pos hP hf ge.inv).le (flow_nonneg hP ge.inv n)
  intro n hn
  obtain ⟨m, h₁, rfl⟩ := Finset.mem_image.1 hn
  obtain ⟨h₁, z₁⟩ := Finset.mem_filter.1 h₁
  obtain ⟨a, d₁, a', e₁, x1, x2, x3⟩ := hf' m h₁ z₁
  exact x3.mem

theorem goes_balance (hP : P.Wf) (hf : PosFactors P) (gd : GoodState P d) (ge : GoodState P e) :
    stateWeight P d * goes P d e = stateWeight P e * goes P e d :=
  le_antisymm (goes_le hP hf gd ge) (goes_le hP hf ge gd)

/-! ### The step as a transition matrix -/

theorem exit_le (hP : P.Wf) (h : Inv P d) (m : Move Q) : 0 ≤ m.exit P d ∧ m.exit P d ≤ m.chance P d := by
  have hc := chance_pos hP h m
  unfold Move.exit
  split
  · next a d' ha =>
    obtain ⟨out, -, -, rfl, -, h0⟩ := accepted_ex ha
    exact ⟨(mul_pos hc h0).le, mul_le_of_le_one_right hc.le (min_le_left _ _)⟩
  · exact ⟨le_rfl, hc.le⟩

theorem accepted_inv (hP : P.Wf) (h : Inv P d) {m : Move Q} (hm : m ∈ allMoves P d) {a : Q} (ha : m.accepted P d = some (a, d')) :
    Inv P d' := by
  obtain ⟨hv, -⟩ := (mem_allMoves hP).1 hm
  obtain ⟨out, er, -, -, rfl, -⟩ := accepted_ex ha
  obtain ⟨o', e', hi, -⟩ := Move.good hP h hv (le_refl (0 : Q))
  rw [er] at e'; cases e'; exact hi

theorem flow_sum (hP : P.Wf) {X : Finset (Diag Q F)} {y : Diag Q F} (hX : Around P X y) {m : Move Q} (hm : m ∈ allMoves P y) :
    ∑ x ∈ X, m.flow P y x = m.exit P y := by
  classical
  unfold Move.flow Move.exit
  cases ha : m.accepted P y with
  | none => simp
  | some p =>
    obtain ⟨a, d'⟩ := p
    obtain ⟨x₀, hx₀, s₀⟩ := hX.cover m hm a d' ha
    dsimp only
    rw [Finset.sum_eq_single x₀]
    · exact if_pos s₀
    · intro x hx hne
      exact if_neg fun s => hne (hX.differ x hx x₀ hx₀
        ((s.symm (accepted_inv hP (hX.good y hX.mem).inv hm ha)).trans s₀))
    · exact fun h => absurd hx₀ h

theorem goes_sum (hP : P.Wf) {X : Finset (Diag Q F)} {y : Diag Q F} (hX : Around P X y) :
    ∑ x ∈ X, goes P y x = 1 - stays P y := by
  unfold goes stays
  rw [Finset.sum_comm, Finset.sum_congr rfl fun m hm => flow_sum hP hX hm]
  ring

open Classical in
theorem stays_sum {X : Finset (Diag Q F)} {y : Diag Q F} (hX : Around P X y) :
    (∑ x ∈ X, if SameUpToCells y x then stays P y else 0) = stays P y := by
  rw [Finset.sum_eq_single y]
  · exact if_pos (SameUpToCells.refl y)
  · exact fun x hx hne => if_neg fun s => hne (hX.differ y hX.mem x hx s).symm
  · exact fun h => absurd hX.mem h

theorem stepProb_sum (hP : P.Wf) {X : Finset (Diag Q F)} {y : Diag Q F} (hX : Around P X y) :
    ∑ x ∈ X, stepProb P y x = 1 := by
  unfold stepProb
  rw [Finset.sum_add_distrib, goes_sum hP hX, stays_sum hX]
  ring

theorem stationary (hP : P.Wf) (hf : PosFactors P) {X : Finset (Diag Q F)} {y : Diag Q F} (hX : Around P X y) :
    ∑ x ∈ X, stateWeight P x * stepProb P x y = stateWeight P y := by
  classical
  have key : ∀ x ∈ X, stateWeight P x * stepProb P x y = stateWeight P y * stepProb P y x := by
    intro x hx
    have gx := hX.good x hx
    have gy := hX.good y hX.mem
    unfold stepProb
    rw [mul_add, mul_add, goes_balance hP hf gx gy]
    by_cases hxy : SameUpToCells x y
    · obtain rfl := hX.differ x hx y hX.mem hxy
      rfl
    · rw [if_neg hxy, if_neg fun s => hxy (s.symm gy.inv)]
      ring
  rw [Finset.sum_congr rfl key, ← Finset.mul_sum, stepProb_sum hP hX, mul_one]

theorem card_ops (P : Params Q F) : (allOps.filter fun op => op.idx < numOps P).card ≤ numOps P := by
  unfold numOps
  split_ifs <;> decide

theorem chance_sum_le (hP : P.Wf) (h : Inv P d) : ∑ m ∈ allMoves P d, m.chance P d ≤ 1 := by
  unfold allMoves
  have hn := numOps_cast_pos P
  rw [Finset.sum_biUnion]
  · calc _ ≤ ∑ _op ∈ allOps.filter (fun op => op.idx < numOps P), 1 / (numOps P : Q) := by
          refine Finset.sum_le_sum fun op _ => ?_
          by_cases h1 : op = .changeRVertex
          · subst h1; simp only [movesOf, Finset.sum_empty]; positivity
          by_cases h2 : op = .changeSpin
          · subst h2; simp only [movesOf, Finset.sum_empty]; positivity
          exact (sum_movesOf hP h h1 h2).le
      _ = ((allOps.filter (fun op => op.idx < numOps P)).card : Q) * (1 / (numOps P : Q)) := by
          rw [Finset.sum_const, nsmul_eq_mul]
      _ ≤ (numOps P : Q) * (1 / (numOps P : Q)) := by
          refine mul_le_mul_of_nonneg_right ?_ (by positivity)
          exact_mod_cast card_ops P
      _ = 1 := mul_one_div_cancel hn.ne'
  · intro a ha b hb hab
    refine Finset.disjoint_left.2 fun m h1 h2 => hab ?_
    have ha := (Finset.mem_filter.1 ha).2
    have hb := (Finset.mem_filter.1 hb).2
    exact ((mem_movesOf hP ha).1 h1).1.symm.trans ((mem_movesOf hP hb).1 h2).1

theorem stays_nonneg (hP : P.Wf) (h : Inv P d) : 0 ≤ stays P d := by
  have : ∑ m ∈ allMoves P d, m.exit P d ≤ ∑ m ∈ allMoves P d, m.chance P d :=
    Finset.sum_le_sum fun m _ => (exit_le hP h m).2
  have h2 := chance_sum_le hP h
  unfold stays
  linarith

theorem stepProb_nonneg (hP : P.Wf) (h : Inv P d) : 0 ≤ stepProb P d e := by
  unfold stepProb goes
  refine add_nonneg (Finset.sum_nonneg fun m _ => flow_nonneg hP h m) ?_
  split_ifs
  · exact stays_nonneg hP h
  · exact le_rfl

/-! ### The states around a good state -/

theorem accepted_good (hP : P.Wf) (hs : SmallLattice P) (gd : GoodState P d)
    (h1 : d.order = 1 → d.worm.exist = false → d.hasGamma = 0 → NoDelta d) {m : Move Q}
    (hm : m ∈ allMoves P d) {a : Q} (ha : m.accepted P d = some (a, d')) : GoodState P d' := by
  have hi' := accepted_inv hP gd.inv hm ha
  obtain ⟨hv, ht⟩ := (mem_allMoves hP).1 hm
  obtain ⟨out, er, hacc, -, rfl, -⟩ := accepted_ex ha
  obtain ⟨z, hz⟩ := urn_zero (Q := Q)
  obtain ⟨o, ho⟩ := Move.words hs gd.inv hv ht z
  rw [hz, er] at ho
  obtain ⟨k1, k2, k3⟩ := runOp_kept hP gd.inv m.op o _ ho hacc
  refine ⟨hi', k2 gd.spinW, k3 gd.spinW gd.wormSpin, runOp_siteG hP gd.inv gd.site m.op o _ ho hacc, k1 gd.zero gd.delta,
    runOp_grid hP gd.inv gd.grid m.op o _ ho hacc, fun q => ?_⟩
  obtain rfl := Move.to_zero hP gd.inv er hacc q
  obtain ⟨-, e2, e3, -⟩ := toOrder0_count (P := P) (d := d) 0 _ er hacc
  have hsk := not_skip er hacc
  have hn : NoDelta d := by
    by_cases c1 : d.worm.exist = true ∨ d.order ≠ 1
    · exact absurd (by simp [Move.run, c1]) hsk
    by_cases c2 : d.hasGamma ≠ 0
    · exact absurd (by simp [Move.run, c2]) hsk
    simp only [not_or, not_not, Bool.not_eq_true] at c1 c2
    exact h1 c1.2 c1.1 c2
  intro w hw
  rw [e3]
  rw [e2] at hw
  exact hn w hw

open Classical in
theorem representatives (y : Diag Q F) (hy : Inv P y) (S : Finset (Diag Q F)) (hS : ∀ x ∈ S, Inv P x) :
    ∃ X ⊆ insert y S, y ∈ X ∧ (∀ x ∈ X, ∀ x' ∈ X, SameUpToCells x x' → x = x') ∧ ∀ x ∈ S, ∃ x' ∈ X, SameUpToCells x x' := by
  induction S using Finset.induction_on with
  | empty => exact ⟨{y}, by simp, by simp, by simp, by simp⟩
  | insert s S _ ih =>
    obtain ⟨X, h1, h2, h3, h4⟩ := ih fun x hx => hS x (Finset.mem_insert_of_mem hx)
    have sub : insert y S ⊆ insert y (insert s S) := Finset.insert_subset_insert _ (Finset.subset_insert _ _)
    by_cases c : ∃ x' ∈ X, SameUpToCells s x'
    · refine ⟨X, h1.trans sub, h2, h3, fun x hx => ?_⟩
      rcases Finset.mem_insert.1 hx with rfl | hx
      · exact c
      · exact h4 x hx
    · have hs : Inv P s := hS s (Finset.mem_insert_self _ _)
      have hX : ∀ x ∈ X, Inv P x := by
        intro x hx
        rcases Finset.mem_insert.1 (h1 hx) with rfl | hx
        · exact hy
        · exact hS x (Finset.mem_insert_of_mem hx)
      refine ⟨insert s X, ?_, Finset.mem_insert_of_mem h2, ?_, ?_⟩
      · intro x hx
        rcases Finset.mem_insert.1 hx with rfl | hx
        · exact Finset.mem_insert_of_mem (Finset.mem_insert_self _ _)
        · exact sub (h1 hx)
      · intro x hx x' hx' q
        rcases Finset.mem_insert.1 hx with k | k <;> rcases Finset.mem_insert.1 hx' with k' | k'
        · rw [k, k']
        · exact absurd ⟨x', k', k ▸ q⟩ c
        · exact absurd ⟨x, k, k' ▸ q.symm (hX x k)⟩ c
        · exact h3 x k x' k' q
      · intro x hx
        rcases Finset.mem_insert.1 hx with rfl | hx
        · exact ⟨x, Finset.mem_insert_self _ _, SameUpToCells.refl x⟩
        · obtain ⟨x', hx', q⟩ := h4 x hx
          exact ⟨x', Finset.mem_insert_of_mem hx', q⟩

theorem exists_around (hP : P.Wf) (hs : SmallLattice P) (gd : GoodState P d)
    (h1 : d.order = 1 → d.worm.exist = false → d.hasGamma = 0 → NoDelta d) : ∃ X, Around P X d := by
  classical
  let S : Finset (Diag Q F) := (allMoves P d).biUnion fun m =>
    match m.accepted P d with
    | some (_, d') => {d'}
    | none => ∅
  have hS : ∀ x, x ∈ S ↔ ∃ m ∈ allMoves P d, ∃ a, m.accepted P d = some (a, x) := by
    intro x
    constructor
    · intro hx
      obtain ⟨m, hm, hx⟩ := Finset.mem_biUnion.1 hx
      cases e : m.accepted P d with
      | none => rw [e] at hx; simp at hx
      | some p => rw [e] at hx; obtain ⟨a, d'⟩ := p; exact ⟨m, hm, a, by rw [e, Finset.mem_singleton.1 hx]⟩
    · rintro ⟨m, hm, a, e⟩
      refine Finset.mem_biUnion.2 ⟨m, hm, ?_⟩
      rw [e]
      exact Finset.mem_singleton_self _
  have good : ∀ x ∈ S, GoodState P x := fun x hx => by
    obtain ⟨m, hm, a, e⟩ := (hS x).1 hx
    exact accepted_good hP hs gd h1 hm e
  obtain ⟨X, s1, s2, s3, s4⟩ := representatives d gd.inv S fun x hx => (good x hx).inv
  refine ⟨X, fun x hx => ?_, s3, s2, fun m hm a d' e => s4 d' ((hS d').2 ⟨m, hm, a, e⟩)⟩
  rcases Finset.mem_insert.1 (s1 hx) with rfl | hx
  · exact gd
  · exact good x hx

/-- Where a step can come from, a step can go to. -/
theorem goes_back (hP : P.Wf) (hf : PosFactors P) (gd : GoodState P d) (ge : GoodState P e) (h : goes P d e ≠ 0) :
    goes P e d ≠ 0 := fun q => by
  have := goes_balance hP hf gd ge
  rw [q, mul_zero] at this
  exact h ((mul_eq_zero.1 this).resolve_left (stateWeight_pos hP hf gd.inv).ne')

/-- Every good state with a step to `y` is in a set around `y`, up to the cells. -/
theorem around_all (hP : P.Wf) (hf : PosFactors P) {X : Finset (Diag Q F)} {y : Diag Q F} (hX : Around P X y)
    (gd : GoodState P d) (h : goes P d y ≠ 0) : ∃ x ∈ X, SameUpToCells d x := by
  have h' := goes_back hP hf gd (hX.good y hX.mem) h
  obtain ⟨m, hm, hz⟩ := Finset.exists_ne_zero_of_sum_ne_zero h'
  obtain ⟨a, d₁, ha, s⟩ := flow_ne hz
  obtain ⟨x, hx, q⟩ := hX.cover m hm a d₁ ha
  exact ⟨x, hx, (s.symm (accepted_inv hP (hX.good y hX.mem).inv hm ha)).trans q⟩

end
end Feyn
