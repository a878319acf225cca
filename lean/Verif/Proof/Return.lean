import Verif.Proof.Realise
import Verif.Proof.RevMain

/-!
# Every run can be undone

The times of a diagram stay on the grid of the generator, so the reverse of each accepted update can be drawn.
-/

namespace Feyn

set_option linter.unusedSectionVars false
set_option linter.unusedSimpArgs false

section
variable {Q F : Type} [Field Q] [LinearOrder Q] [IsStrictOrderedRing Q] [Field F]
variable {P : Params Q F} {d d' : Diag Q F}

attribute [local irreducible] metropolis

theorem addCore_grid (hP : P.Wf) (h : Inv P d) (hg : OnGrid P d) (ho : d.order ≠ 0) (hmx : d.order < P.maxOrd)
    {isDelta : Bool} {kW : ℤ} {dir dirW : Dir} {tauA tauB u : Q} (hA : GridTime P tauA) (hB : GridTime P tauB) :
    (addCore P d isDelta kW dir dirW tauA tauB u).All (Acc (OnGrid P)) := by
  have hN : d.order = d.W.avail := by have := h.count.order; omega
  have hM := hP.lt_max
  have hv := h.count.ver
  unfold addCore
  peelA
  rename_i x1 hA' x2 hB' x3 hGA x4 hGB x5 hw _ _ _ _ _ _
  obtain ⟨vA, ver1⟩ := x1
  obtain ⟨vB, ver2⟩ := x2
  dsimp only at hA' hB' ⊢
  obtain ⟨a1, a2, a3, a4⟩ := add_live h.count.verWf hA' (by omega)
  obtain ⟨b1, b2, b3, b4⟩ := add_live a1 hB' (by omega)
  refine ⟨fun v hv => ?_, hg.2⟩
  have hv : v ∈ ver2.live := hv
  show GridTime P (upd (upd d.co.tau vA tauA) vB tauB v)
  rw [b3, Finset.mem_insert, a3, Finset.mem_insert] at hv
  rw [upd_apply, upd_apply]
  split_ifs with c1 c2
  · exact hB
  · exact hA
  · exact hg.1 v (by tauto)

theorem delCore_grid (h : Inv P d) (hg : OnGrid P d)
    {isDelta : Bool} {dir : Dir} {u : Q} : (delCore P d isDelta dir u).All (Acc (OnGrid P)) := by
  unfold delCore
  peelA
  rename_i ver1 r1 ver2 r2 _ _ g1 r3 _ _ g2 r4 _ _ w1 r5
  dsimp only at r1 r2 r3 r4 r5 ⊢
  obtain ⟨k1, k2⟩ := remove_live_sub h.count.verWf r1
  obtain ⟨-, k3⟩ := remove_live_sub k1 r2
  exact ⟨fun v hv => hg.1 v (k2 v (k3 v hv)), hg.2⟩

theorem foldl_loopAssign_grid (newR : Site) (l : List (ℕ × F × F)) (d : Diag Q F) (hg : OnGrid P d) :
    OnGrid P (l.foldl (loopAssign newR) d) := by
  induction l generalizing d with
  | nil => exact hg
  | cons a as ih => exact ih (loopAssign newR d a) hg

theorem runOp_grid (hP : P.Wf) (h : Inv P d) (hg : OnGrid P d) (op : Op) (o : Words) :
    (runOp P op o d).All (Acc (OnGrid P)) := by
  cases op <;> unfold runOp <;> dsimp only
  case createWorm =>
    unfold createWorm createWormCore
    peelA
    all_goals exact hg
  case deleteWorm =>
    unfold deleteWorm deleteWormCore
    peelA
    all_goals exact hg
  case moveWormG =>
    unfold moveWormG moveWormGCore
    peelA
    all_goals exact hg
  case moveWormW =>
    unfold moveWormW moveWormWCore
    peelA
    all_goals exact hg
  case reconnect =>
    unfold reconnect reconnectCore
    peelA
    all_goals exact hg
  case addInteraction =>
    unfold addInteraction
    refine Res.all_ite (fun _ => acc_skip) (fun c => ?_)
    refine Res.all_ite (fun _ => acc_skip) (fun c2 => ?_)
    simp only [not_or, not_le] at c2
    refine Res.all_bind fun _ _ => ?_
    refine Res.all_bind fun _ _ => ?_
    refine Res.all_bind fun _ _ => ?_
    exact addCore_grid hP h hg c2.1 (by omega) (gridTime_pick _) (gridTime_pick _)
  case addDelta =>
    unfold addDelta
    refine Res.all_ite (fun _ => acc_skip) (fun c => ?_)
    refine Res.all_ite (fun _ => acc_skip) (fun c2 => ?_)
    simp only [not_or, not_le] at c2
    refine Res.all_bind fun _ _ => ?_
    refine Res.all_bind fun _ _ => ?_
    refine Res.all_bind fun _ _ => ?_
    exact addCore_grid hP h hg c2.1 (by omega) (gridTime_pick _) (gridTime_pick _)
  case delInteraction =>
    unfold delInteraction
    refine Res.all_ite (fun _ => acc_skip) (fun c => ?_)
    simp only [Bool.not_eq_false] at c
    refine Res.all_ite (fun _ => acc_skip) (fun _ => ?_)
    refine Res.all_bind fun _ _ => ?_
    exact delCore_grid h hg
  case delDelta =>
    unfold delDelta
    refine Res.all_ite (fun _ => acc_skip) (fun c => ?_)
    simp only [Bool.not_eq_false] at c
    refine Res.all_ite (fun _ => acc_skip) (fun _ => ?_)
    refine Res.all_bind fun _ _ => ?_
    exact delCore_grid h hg
  case changeTau =>
    unfold changeTau changeTauCore
    peelA
    all_goals
      refine ⟨fun v hv => ?_, hg.2⟩
      show GridTime P (upd d.co.tau _ _ v)
      rw [upd_apply]
      split_ifs
      · exact gridTime_pick _
      · exact hg.1 v hv
  case changeRVertex => exact acc_skip
  case changeSpin => exact acc_skip
  case changeRLoop =>
    unfold changeRLoop
    refine Res.all_ite (fun _ => acc_skip) (fun c => ?_)
    refine Res.all_ite (fun _ => Res.all_abort) (fun c2 => ?_)
    refine Res.all_bind fun v0 _ => ?_
    refine Res.all_bind fun _ _ => ?_
    refine Res.all_bind fun res _ => ?_
    cases res with
    | none => exact acc_skip
    | some p =>
      obtain ⟨vs, fw⟩ := p
      dsimp only
      unfold changeRLoopCore
      peelA
      exact foldl_loopAssign_grid _ _ _ hg
  case g2w =>
    unfold g2w g2wCore
    peelA
    all_goals exact hg
  case w2g =>
    unfold w2g w2gCore
    peelA
    all_goals exact hg
  case delta2cont =>
    unfold delta2cont delta2contCore deltaCore
    peelA
    all_goals
      refine ⟨fun v hv => ?_, hg.2⟩
      show GridTime P (upd d.co.tau _ _ v)
      rw [upd_apply]
      split_ifs
      · exact gridTime_pick _
      · exact hg.1 v hv
  case cont2delta =>
    obtain ⟨w, e1, hw⟩ := h.pickW (o 0)
    unfold cont2delta cont2deltaCore deltaCore
    simp only [e1, Res.ok_bind]
    peelA
    all_goals
      refine ⟨fun v hv => ?_, hg.2⟩
      show GridTime P (upd d.co.tau _ _ v)
      rw [upd_apply]
      split_ifs
      · exact hg.1 _ (h.topo.wV_mem _ hw _)
      · exact hg.1 v hv
  case toOrder0 =>
    unfold toOrder0 toOrder0Core
    peelA
    all_goals exact hg
  case backToOrder1 =>
    unfold backToOrder1 backToOrder1Core
    peelA
    all_goals
      refine ⟨fun v hv => ?_, hg.2⟩
      show GridTime P (upd (upd d.co.tau _ _) _ _ v)
      rw [upd_apply, upd_apply]
      split_ifs
      · exact gridTime_pick _
      · exact gridTime_pick _
      · exact hg.1 v hv
  case toGGGammaG =>
    unfold toGGGammaG toGGGammaGCore
    peelA
    all_goals exact ⟨hg.1, fun _ => gridTime_pick _⟩
  case fromGGGammaG =>
    unfold fromGGGammaG fromGGGammaGCore
    peelA
    all_goals exact ⟨hg.1, fun q => absurd rfl q⟩
  case toWWGammaW =>
    unfold toWWGammaW toWWGammaWCore
    peelA
    all_goals exact ⟨hg.1, fun _ => gridTime_pick _⟩
  case fromWWGammaW =>
    unfold fromWWGammaW fromWWGammaWCore
    peelA
    all_goals exact ⟨hg.1, fun q => absurd rfl q⟩

theorem started_grid (h : Started P d) : OnGrid P d := by
  refine ⟨fun v hv => ?_, fun q => absurd h.hasGamma q⟩
  rw [h.ver, Bundle.ofSize_live (by norm_num), Finset.mem_range] at hv
  exact ⟨0, by norm_num, by rw [h.tau v hv]; simp⟩

theorem Untouched.grid (h : Untouched d d') (hg : OnGrid P d) : OnGrid P d' := by
  rcases h with rfl | ⟨h0, e, rfl⟩
  · exact hg
  · exact ⟨hg.1, fun q => absurd h0 q⟩

theorem sameState_ext (d : Diag Q F) (e e' : Ext Q) (h : d.hasGamma = 0) :
    SameUpToCells { d with ext := e } { d with ext := e' } :=
  ⟨id, id, id, { SameState.refl d with ext := fun q => absurd h q }⟩

theorem Untouched.same (h : Untouched d d') : SameUpToCells d d' ∧ SameUpToCells d' d := by
  rcases h with rfl | ⟨h0, e, rfl⟩
  · exact ⟨.refl d', .refl d'⟩
  · exact ⟨sameState_ext d d.ext e h0, sameState_ext d e d.ext h0⟩

theorem Move.Times.mono {g g' : Q → Prop} {m : Move Q} (h : ∀ t, g t → g' t) (ht : m.Times g) : m.Times g' := by
  cases m <;> first | trivial | exact h _ ht | exact ⟨h _ ht.1, h _ ht.2⟩

/-- One hop: nothing happens, or a move with times of the grid is accepted. -/
theorem hopOne_cases {c c' : Chain Q F} (hP : c.P.Wf) (h : Inv c.P c.d) {o : Words} (e : hopOne c o = .ok c') :
    Untouched c.d c'.d ∨ ∃ (m : Move Q) (w : Word) (out : Out Q F), m.Valid c.P c.d ∧ m.Times (GridTime c.P) ∧
      m.run c.P c.d (urn Q w) = .ok out ∧ out.tag = .accept ∧ c' = c.book m.op out ∧
      selectOp c.P (urn Q (o 0)) = some m.op := by
  unfold hopOne at e
  obtain ⟨op, hs, hi, -, -⟩ := selectOp_spec c.P (urn Q (o 0)) (urn_nonneg _) (urn_lt_one _)
  rw [hs] at e
  dsimp only at e
  obtain ⟨out, e1, -⟩ := runOp_good hP h op (fun i => o (i + 1))
  rw [e1, Res.ok_bind] at e
  cases e
  have he := runOp_effect c.P op _ c.d out e1
  by_cases ht : out.tag = .accept
  swap
  · exact Or.inl (he.1 ht)
  by_cases h1 : op = .changeRVertex
  · subst h1
    exact (skip_not_accept e1 ht).elim
  by_cases h2 : op = .changeSpin
  · subst h2
    exact (skip_not_accept e1 ht).elim
  obtain ⟨m, w, q1, q2, q3, q4⟩ := runOp_isMove hP h hi h1 h2 (fun i => o (i + 1))
  exact Or.inr ⟨m, w, out, q2, q3.mono (by rintro t ⟨w, rfl⟩; exact gridTime_pick w), q4 ▸ e1, ht, by rw [q1],
    by rw [q1]; exact hs⟩

theorem Move.rev_times (hi : Inv P d) (hg : OnGrid P d) {m : Move Q} (hm : m.Valid P d) {u : Q} {out : Out Q F}
    (e : m.run P d u = .ok out) (ha : out.tag = .accept) : (m.rev d).Times (GridTime P) := by
  obtain ⟨-, hm⟩ := hm
  have hsk : m.run P d u ≠ skip d := fun q => by
    rw [q] at e; cases e; cases ha
  cases m
  case del δ dir =>
    have he : d.worm.exist = true := by
      by_contra c
      exact hsk (by simp only [Move.run, Bool.not_eq_true] at c ⊢; rw [if_pos c])
    exact ⟨hg.1 _ (hi.topo.gV_mem _ (hi.topo.vG_mem _ (hi.worm.ira_mem he) _) _),
      hg.1 _ (hi.topo.gV_mem _ (hi.topo.vG_mem _ (hi.worm.masha_mem he) _) _)⟩
  case changeTau v t => exact hg.1 v hm.1
  case cont2delta w => exact hg.1 _ (hi.topo.wV_mem _ hm _)
  case toOrder0 =>
    have := hi.count.ver
    have := hi.count.n_pos
    exact ⟨hg.1 _ (Bundle.slot_mem_live hi.count.verWf (by omega)), hg.1 _ (Bundle.slot_mem_live hi.count.verWf (by omega))⟩
  case fromGGGammaG =>
    refine hg.2 fun q => hsk ?_
    simp only [Move.run]
    rw [if_pos (Or.inr (Or.inr (by omega)))]
  case fromWWGammaW =>
    refine hg.2 fun q => hsk ?_
    simp only [Move.run]
    rw [if_pos (Or.inr (Or.inr (by omega)))]
  all_goals trivial

theorem Hops.refl (a : Chain Q F) : Hops a a := ⟨[], rfl⟩

theorem Hops.trans {a b c : Chain Q F} (h : Hops a b) (h' : Hops b c) : Hops a c := by
  obtain ⟨os, e⟩ := h
  obtain ⟨os', e'⟩ := h'
  refine ⟨os ++ os', ?_⟩
  induction os generalizing a with
  | nil => cases e; exact e'
  | cons o os ih =>
    simp only [List.cons_append, hop] at e ⊢
    cases hx : hopOne a o with
    | ok x => rw [hx, Res.ok_bind] at e; rw [Res.ok_bind]; exact ih e
    | abort => rw [hx] at e; cases e
    | ub => rw [hx] at e; cases e

theorem Hops.one {a b : Chain Q F} {o : Words} (e : hopOne a o = .ok b) : Hops a b := ⟨[o], by simp [hop, e]⟩

/-- Induction over the hops, the first one first. -/
theorem Hops.head {p : Chain Q F → Prop} {b : Chain Q F} (h0 : p b)
    (h1 : ∀ a a' o, hopOne a o = .ok a' → Hops a' b → p a' → p a) {a : Chain Q F} (h : Hops a b) : p a := by
  obtain ⟨os, e⟩ := h
  induction os generalizing a with
  | nil => cases e; exact h0
  | cons o os ih =>
    simp only [hop] at e
    cases hx : hopOne a o with
    | ok x => rw [hx, Res.ok_bind] at e; exact h1 a x o hx ⟨os, e⟩ (ih e)
    | abort => rw [hx] at e; cases e
    | ub => rw [hx] at e; cases e

theorem HopsD.hops {a b : Chain Q F} (h : HopsD a b) : Hops a b := by
  induction h with
  | refl => exact .refl _
  | hop o _ e _ ih => exact ih.trans (.one e)

theorem Hops.inv {a b : Chain Q F} (hP : a.P.Wf) (hi : Inv a.P a.d) (h : Hops a b) : b.P = a.P ∧ Inv b.P b.d := by
  refine Hops.head (p := fun a => a.P.Wf → Inv a.P a.d → b.P = a.P ∧ Inv b.P b.d) (fun _ h => ⟨rfl, h⟩) ?_ h hP hi
  intro a a' o e _ ih hP hi
  obtain ⟨h3, h4⟩ := hopOne_inv hP hi e
  obtain ⟨h5, h6⟩ := ih (h3 ▸ hP) h4
  exact ⟨h5.trans h3, h6⟩

theorem hopOne_grid {c c' : Chain Q F} (hP : c.P.Wf) (h : Inv c.P c.d) (hg : OnGrid c.P c.d) {o : Words}
    (e : hopOne c o = .ok c') : OnGrid c'.P c'.d := by
  have hp := (hopOne_inv hP h e).1
  rw [hp]
  unfold hopOne at e
  obtain ⟨op, hs, -, -, -⟩ := selectOp_spec c.P (urn Q (o 0)) (urn_nonneg _) (urn_lt_one _)
  rw [hs] at e
  dsimp only at e
  obtain ⟨out, e1, -⟩ := runOp_good hP h op (fun i => o (i + 1))
  have he := runOp_effect c.P op _ c.d out e1
  have hr := runOp_grid hP h hg op _ out e1
  rw [e1, Res.ok_bind] at e
  cases e
  by_cases ht : out.tag = .accept
  · exact hr ht
  · exact (he.1 ht).grid hg

theorem Hops.grid {a b : Chain Q F} (hP : a.P.Wf) (hi : Inv a.P a.d) (hg : OnGrid a.P a.d) (h : Hops a b) :
    OnGrid b.P b.d := by
  refine Hops.head (p := fun a => a.P.Wf → Inv a.P a.d → OnGrid a.P a.d → OnGrid b.P b.d) (fun _ _ h => h) ?_ h hP hi hg
  intro a a' o e _ ih hP hi hg
  obtain ⟨h3, h4⟩ := hopOne_inv hP hi e
  exact ih (h3 ▸ hP) h4 (hopOne_grid hP hi hg e)

/-- A hop can be made from the same state in other cells. -/
theorem hopOne_transfer {c c' c₁ : Chain Q F} (hs : SmallLattice c.P) (hP : c.P.Wf) (hi : Inv c.P c.d) (hp : c'.P = c.P)
    (hi' : Inv c'.P c'.d) (s : SameUpToCells c.d c'.d) {o : Words} (e : hopOne c o = .ok c₁) :
    ∃ c₁', Hops c' c₁' ∧ SameUpToCells c₁.d c₁'.d := by
  rcases hopOne_cases hP hi e with h | ⟨m, w, out, hm, ht, er, ha, rfl, hop⟩
  · exact ⟨c', .refl c', h.same.2.trans s⟩
  obtain ⟨m', ⟨hm', out', er', -, -, s'⟩, ht'⟩ := Move.transfer hP hi (hp ▸ hi') s hm (urn_nonneg w) er ha
  obtain ⟨o', eo⟩ := Move.hopOne (c := c') (m := m') (hp ▸ hs) hi' (hp ▸ hm') (by rw [hp]; exact ht' _ ht) (by rw [hp]; exact er')
  exact ⟨_, .one eo, s'⟩

theorem Hops.transfer {c c' b : Chain Q F} (hs : SmallLattice c.P) (hP : c.P.Wf) (hi : Inv c.P c.d) (hp : c'.P = c.P)
    (hi' : Inv c'.P c'.d) (s : SameUpToCells c.d c'.d) (h : Hops c b) : ∃ b', Hops c' b' ∧ SameUpToCells b.d b'.d := by
  refine Hops.head (p := fun c => ∀ c' : Chain Q F, SmallLattice c.P → c.P.Wf → Inv c.P c.d → c'.P = c.P → Inv c'.P c'.d →
    SameUpToCells c.d c'.d → ∃ b', Hops c' b' ∧ SameUpToCells b.d b'.d) (fun c' _ _ _ _ _ s => ⟨c', .refl c', s⟩) ?_ h c' hs hP hi
    hp hi' s
  intro a a' o e _ ih c' hs hP hi hp hi' s
  obtain ⟨c₁', v, t⟩ := hopOne_transfer hs hP hi hp hi' s e
  obtain ⟨h1, h2⟩ := hopOne_inv hP hi e
  obtain ⟨h3, h4⟩ := v.inv (hp ▸ hP) hi'
  obtain ⟨b', v', t'⟩ := ih c₁' (h1 ▸ hs) (h1 ▸ hP) h2 (h3.trans (hp.trans h1.symm)) h4 t
  exact ⟨b', v.trans v', t'⟩

/-- A hop can be undone. -/
theorem hopOne_undo {c c' : Chain Q F} (hs : SmallLattice c.P) (hP : c.P.Wf) (hf : PosFactors c.P) (hi : Inv c.P c.d)
    (hws : WormSpinOk c.d) (hsg : SiteGOk c.d) (hg : OnGrid c.P c.d) {o : Words} (e : hopOne c o = .ok c')
    (hdt : selectOp c.P (urn Q (o 0)) = some .delDelta ∨ selectOp c.P (urn Q (o 0)) = some .delta2cont → DeltaTau c.d) :
    ∃ c'', Hops c' c'' ∧ SameUpToCells c.d c''.d := by
  obtain ⟨hp, hi'⟩ := hopOne_inv hP hi e
  rcases hopOne_cases hP hi e with h | ⟨m, w, out, hm, ht, er, ha, rfl, hop⟩
  · exact ⟨c', .refl c', h.same.1⟩
  rw [hop, Option.some.injEq, Option.some.injEq] at hdt
  obtain ⟨v, -, ⟨d'', pr, s⟩, hb⟩ := Move.bal hP hf hi hws hsg hdt hm (urn_nonneg w) er ha
  have hi₁ : Inv c.P out.d := hi'
  have hpos : 0 < out.prob := by
    have q1 := mul_pos (target_pos hP hf hi) (density_pos hP hi m)
    have q2 := mul_pos (target_pos hP hf hi₁) (density_pos hP hi₁ (m.rev c.d))
    rw [← hb] at q2
    exact (pos_iff_pos_of_mul_pos q2).2 q1
  obtain ⟨z, ez⟩ := urn_zero (Q := Q)
  have er' := (pr (urn Q z)).1 (Or.inr (by rw [ez]; exact inv_pos.2 hpos))
  obtain ⟨o', eo⟩ := Move.hopOne (c := c.book m.op out) hs hi' v (Move.rev_times hi hg hm er ha) er'
  exact ⟨_, .one eo, s⟩

end
end Feyn
