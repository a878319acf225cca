import Verif.Proof.StatNames

/-! The number of times on which a diagram depends. -/

namespace Feyn

set_option linter.unusedSectionVars false
set_option linter.unusedSimpArgs false

section
variable {Q F : Type} [Field Q] [LinearOrder Q] [IsStrictOrderedRing Q] [Field F]
variable {P : Params Q F} {d d' : Diag Q F}

theorem SameUpToCells.freeTimes (s : SameUpToCells d d') : Feyn.freeTimes d' = Feyn.freeTimes d := by
  obtain ⟨fV, fG, fW, s⟩ := s
  unfold Feyn.freeTimes
  rw [s.order, s.hasGamma]
  have : (∑ w ∈ d'.W.live, if d'.fl.wDelta w = true then 1 else 2) = ∑ w ∈ d.W.live, if d.fl.wDelta w = true then 1 else 2 := by
    symm
    refine Finset.sum_nbij fW (fun w hw => s.w.mapsTo hw) s.w.injOn s.w.surjOn fun w hw => ?_
    rw [(s.wFl w hw).2.2.1]
  rw [this]

theorem SameUpToCells.target (s : SameUpToCells d d') : Feyn.target P d' = Feyn.target P d := by
  obtain ⟨fV, fG, fW, s⟩ := s
  unfold Feyn.target
  rw [s.weight, s.order, s.nW, s.measG, s.hasGamma, s.exist]
  by_cases he : d.worm.exist = true
  · rw [(s.worm he).2.2.2.2]
  · rw [if_neg he, if_neg he]

theorem SameUpToCells.stateWeight (s : SameUpToCells d d') : Feyn.stateWeight P d' = Feyn.stateWeight P d := by
  unfold Feyn.stateWeight
  rw [s.target, s.freeTimes]

/-- Fields on which the number of times depends. -/
def SameCount (d d' : Diag Q F) : Prop :=
  d'.order = d.order ∧ d'.W = d.W ∧ d'.fl.wDelta = d.fl.wDelta

theorem SameCount.free (h : SameCount d d') :
    freeTimes d' = if d.order = 0 then 0
      else (∑ w ∈ d.W.live, if d.fl.wDelta w = true then 1 else 2) + if d'.hasGamma = 0 then 0 else 1 := by
  obtain ⟨h1, h2, h3⟩ := h
  unfold freeTimes
  rw [h1, h2, h3]

theorem foldl_loopAssign_count (newR : Site) (l : List (ℕ × F × F)) (d : Diag Q F) :
    SameCount d (l.foldl (loopAssign newR) d) ∧ (l.foldl (loopAssign newR) d).hasGamma = d.hasGamma := by
  induction l generalizing d with
  | nil => exact ⟨⟨rfl, rfl, rfl⟩, rfl⟩
  | cons a as ih => exact ih (loopAssign newR d a)

/-- Updates that do not change the number of lines of each kind. -/
def Move.Calm : Move Q → Prop
  | .add .. | .del .. | .delta2cont .. | .cont2delta _ | .toOrder0 | .backToOrder1 .. => False
  | _ => True

/-- The status word after the update. -/
def Move.gammaAfter (d : Diag Q F) : Move Q → ℕ
  | .toGGGammaG .. => 1
  | .toWWGammaW .. => 2
  | .fromGGGammaG => 0
  | .fromWWGammaW => 0
  | _ => d.hasGamma

section
attribute [local irreducible] metropolis

theorem Move.count {m : Move Q} (hk : m.Calm) (u : Q) :
    (m.run P d u).All (Acc fun d' => SameCount d d' ∧ d'.hasGamma = m.gammaAfter d) := by
  cases m <;> simp only [Move.Calm] at hk
  case createWorm => unfold Move.run createWormCore; peelA; exact ⟨⟨rfl, rfl, rfl⟩, rfl⟩
  case deleteWorm => unfold Move.run deleteWormCore; peelA; exact ⟨⟨rfl, rfl, rfl⟩, rfl⟩
  case moveWormG => unfold Move.run moveWormGCore; peelA; exact ⟨⟨rfl, rfl, rfl⟩, rfl⟩
  case moveWormW => unfold Move.run moveWormWCore; peelA; exact ⟨⟨rfl, rfl, rfl⟩, rfl⟩
  case reconnect => unfold Move.run reconnectCore; peelA; exact ⟨⟨rfl, rfl, rfl⟩, rfl⟩
  case changeTau => unfold Move.run changeTauCore; peelA; exact ⟨⟨rfl, rfl, rfl⟩, rfl⟩
  case g2w => unfold Move.run g2wCore; peelA; exact ⟨⟨rfl, rfl, rfl⟩, rfl⟩
  case w2g => unfold Move.run w2gCore; peelA; exact ⟨⟨rfl, rfl, rfl⟩, rfl⟩
  case toGGGammaG => unfold Move.run toGGGammaGCore; peelA; exact ⟨⟨rfl, rfl, rfl⟩, rfl⟩
  case fromGGGammaG => unfold Move.run fromGGGammaGCore; peelA; exact ⟨⟨rfl, rfl, rfl⟩, rfl⟩
  case toWWGammaW => unfold Move.run toWWGammaWCore; peelA; exact ⟨⟨rfl, rfl, rfl⟩, rfl⟩
  case fromWWGammaW => unfold Move.run fromWWGammaWCore; peelA; exact ⟨⟨rfl, rfl, rfl⟩, rfl⟩
  case changeRLoop =>
    unfold Move.run
    refine Res.all_ite (fun _ => acc_skip) (fun c => ?_)
    refine Res.all_ite (fun _ => Res.all_abort) (fun c2 => ?_)
    refine Res.all_bind fun v0 _ => ?_
    refine Res.all_bind fun res _ => ?_
    cases res with
    | none => exact acc_skip
    | some p =>
      obtain ⟨vs, fw⟩ := p
      dsimp only
      unfold changeRLoopCore
      peelA
      exact foldl_loopAssign_count _ _ _

theorem addCore_count (hP : P.Wf) (h : Inv P d) (ho : d.order ≠ 0) (hm : d.order < P.maxOrd)
    {δ : Bool} {kW : ℤ} {dir dirW : Dir} {tA tB u : Q} :
    (addCore P d δ kW dir dirW tA tB u).All (Acc fun d' => ∃ w, w ∉ d.W.live ∧ d'.W.live = insert w d.W.live ∧
      d'.order = d.order + 1 ∧ d'.hasGamma = d.hasGamma ∧ d'.fl.wDelta = upd d.fl.wDelta w δ) := by
  have hN : d.order = d.W.avail := by have := h.count.order; omega
  have hM := hP.lt_max
  unfold addCore
  peelA
  rename_i x1 hA x2 hB x3 _ x4 _ x5 hW _ _ _ _ _ _
  obtain ⟨w, w1⟩ := x5
  dsimp only at hW ⊢
  obtain ⟨c1, c2, c3, c4⟩ := add_live h.count.wWf hW (by omega)
  exact ⟨w, c2, c3, rfl, rfl, rfl⟩

theorem addCore_free (hP : P.Wf) (h : Inv P d) (ho : d.order ≠ 0) (hm : d.order < P.maxOrd)
    {δ : Bool} {kW : ℤ} {dir dirW : Dir} {tA tB u : Q} :
    (addCore P d δ kW dir dirW tA tB u).All (Acc fun d' => freeTimes d' = freeTimes d + if δ then 1 else 2) := by
  refine acc_mono (addCore_count hP h ho hm) ?_
  rintro d' ⟨w, c2, c3, e1, e2, e3⟩
  unfold freeTimes
  rw [e1, e2, e3, if_neg (by omega), if_neg ho, c3, Finset.sum_insert c2, upd_same]
  have : (∑ x ∈ d.W.live, if upd d.fl.wDelta w δ x = true then 1 else 2) = ∑ x ∈ d.W.live, if d.fl.wDelta x = true then 1 else 2 := by
    refine Finset.sum_congr rfl fun x hx => ?_
    rw [upd_ne _ _ (show x ≠ w from fun q => c2 (q ▸ hx))]
  rw [this]
  omega

theorem deltaCore_count {b : Bool} {w : ℕ} {t f u : Q} : (deltaCore P d b w t f u).All (Acc fun d' => d'.W = d.W ∧
    d'.order = d.order ∧ d'.hasGamma = d.hasGamma ∧ d'.fl.wDelta = upd d.fl.wDelta w b) := by
  unfold deltaCore
  peelA
  exact ⟨rfl, rfl, rfl, rfl⟩

theorem deltaCore_free {b : Bool} {w : ℕ} {t f u : Q} (hw : w ∈ d.W.live) (ho : d.order ≠ 0) (hd : d.fl.wDelta w = !b) :
    (deltaCore P d b w t f u).All (Acc fun d' => freeTimes d' + (if b then 1 else 0) = freeTimes d + if b then 0 else 1) := by
  refine acc_mono deltaCore_count ?_
  rintro d' ⟨e1, e2, e3, e4⟩
  unfold freeTimes
  rw [e1, e2, e3, e4, if_neg ho, if_neg ho, ← Finset.add_sum_erase _ _ hw, ← Finset.add_sum_erase _ _ hw, upd_same]
  have : (∑ x ∈ d.W.live.erase w, if upd d.fl.wDelta w b x = true then 1 else 2) =
      ∑ x ∈ d.W.live.erase w, if d.fl.wDelta x = true then 1 else 2 := by
    refine Finset.sum_congr rfl fun x hx => ?_
    rw [upd_ne _ _ (Finset.ne_of_mem_erase hx)]
  rw [this, hd]
  cases b <;> simp <;> omega

theorem toOrder0_count (u : Q) : ((Move.toOrder0 : Move Q).run P d u).All (Acc fun d' => d'.order = 0 ∧ d'.W = d.W ∧
    d'.fl.wDelta = d.fl.wDelta ∧ d.order = 1 ∧ d.hasGamma = 0) := by
  unfold Move.run
  refine Res.all_ite (fun _ => acc_skip) (fun c => ?_)
  refine Res.all_ite (fun _ => acc_skip) (fun c' => ?_)
  unfold toOrder0Core
  peelA
  exact ⟨rfl, rfl, rfl, by tauto, by tauto⟩

theorem back_count {r : Site} {t1 t2 : Q} {s1 s2 : Spin} (u : Q) :
    ((Move.backToOrder1 r t1 t2 s1 s2).run P d u).All (Acc fun d' => d'.order = 1 ∧ d'.W = d.W ∧ d'.fl.wDelta = d.fl.wDelta ∧
      d'.hasGamma = 0 ∧ d.order = 0) := by
  unfold Move.run
  refine Res.all_ite (fun _ => acc_skip) (fun c => ?_)
  refine Res.all_ite (fun _ => acc_skip) (fun c' => ?_)
  unfold backToOrder1Core
  peelA
  exact ⟨rfl, rfl, rfl, by dsimp only; tauto, by tauto⟩

end

/-- A diagram of one interaction line that is not instantaneous. -/
theorem free_one (h : Inv P d) (ho : d.order = 1) (hγ : d.hasGamma = 0) (hd : NoDelta d) : freeTimes d = 2 := by
  have hN : d.W.avail = 1 := by rw [← h.order_eq (by omega), ho]
  unfold freeTimes
  rw [if_neg (by omega), if_pos hγ]
  have : (∑ w ∈ d.W.live, if d.fl.wDelta w = true then 1 else 2) = ∑ w ∈ d.W.live, 2 := by
    refine Finset.sum_congr rfl fun x hx => ?_
    rw [hd x hx]; rfl
  rw [this, Finset.sum_const, Bundle.card_live h.count.wWf, hN]
  rfl

/-- The number of times on which the diagram depends, and of those that are drawn. -/
theorem Move.free (hP : P.Wf) (hf : PosFactors P) (h : Inv P d) (hws : WormSpinOk d) (hsg : SiteGOk d) (hdt : DeltaTau d) {m : Move Q}
    (hm : m.Valid P d) {u : Q} (hu : 0 ≤ u) {out : Out Q F} (e : m.run P d u = .ok out) (ha : out.tag = .accept)
    (h0 : d.order = 0 → NoDelta d) (h0' : out.d.order = 0 → NoDelta out.d) :
    freeTimes d + m.times = freeTimes out.d + (m.rev d).times := by
  have hsk := not_skip e ha
  have h' : Inv P out.d := by
    obtain ⟨o', e', hi, -⟩ := Move.good hP h hm hu
    rw [e] at e'; cases e'; exact hi
  have calm : m.Calm → freeTimes out.d = if d.order = 0 then 0
      else (∑ w ∈ d.W.live, if d.fl.wDelta w = true then 1 else 2) + if m.gammaAfter d = 0 then 0 else 1 := by
    intro hc
    obtain ⟨a, b⟩ := Move.count (P := P) (d := d) hc u _ e ha
    rw [a.free, b]
  have ord : m.Calm → m.gammaAfter d = d.hasGamma → freeTimes out.d = freeTimes d := by
    intro hc hg
    rw [calm hc, hg]; rfl
  have add : ∀ {d : Diag Q F} {δ : Bool} {k : ℤ} {a b : Dir} {t t' : Q} {u : Q} {out : Out Q F}, Inv P d →
      (Move.add δ k a b t t').run P d u = .ok out → out.tag = .accept → freeTimes out.d = freeTimes d + if δ then 1 else 2 := by
    intro d δ k a b t t' u out h e ha
    simp only [Move.run] at e
    split_ifs at e with c1 c2
    · exact (skip_not_accept e ha).elim
    · exact (skip_not_accept e ha).elim
    exact addCore_free hP h (by omega) (by omega) _ e ha
  cases m
  case add δ k a b t t' => 
    have := add h e ha
    simp only [Move.times, Move.rev]
    omega
  case del δ dir =>
    obtain ⟨v, rr, ⟨d'', pr, s⟩, -⟩ := Move.bal hP hf h hws hsg (fun _ => hdt) hm hu e ha
    have hp : 0 < out.prob := by
      rcases Move.oneDraw (P := P) (d := d) (.del δ dir) with ⟨x, h1, h2⟩ | ⟨d0, rej, p, acc, h2⟩
      · rw [h2] at e; exact absurd ha (h1 _ e)
      · rw [h2] at e; exact metropolis_pos hu e ha
    have er := (pr 0).1 (Or.inr (inv_pos.2 hp))
    have := add (out := ⟨.accept, _, d''⟩) h' er rfl
    dsimp only at this
    rw [s.freeTimes] at this
    simp only [Move.times, Move.rev]
    omega
  case delta2cont w t =>
    simp only [Move.run] at e
    split_ifs at e with c1
    · exact (skip_not_accept e ha).elim
    simp only [not_or, not_lt] at c1
    unfold delta2contCore at e
    rw [deref_live hm.2.1, Res.ok_bind] at e
    split_ifs at e with c2
    · exact (skip_not_accept e ha).elim
    simp only [Bool.or_eq_true, not_or, Bool.not_eq_true, Bool.not_eq_false'] at c2
    have := deltaCore_free (b := false) hm.2.1 (by omega) c2.1.1 _ e ha
    simp only [Move.times, Move.rev]
    simpa using this.symm
  case cont2delta w =>
    simp only [Move.run] at e
    split_ifs at e with c1
    · exact (skip_not_accept e ha).elim
    simp only [not_or, not_lt] at c1
    have hw : w ∈ d.W.live := hm.2
    unfold cont2deltaCore at e
    rw [deref_live hw, Res.ok_bind] at e
    split_ifs at e with c2
    · exact (skip_not_accept e ha).elim
    simp only [Bool.or_eq_true, not_or, Bool.not_eq_true] at c2
    dsimp only at e
    rw [deref_live (h.topo.wV_mem _ hw _), deref_live (h.topo.wV_mem _ hw _), Res.ok_bind, Res.ok_bind] at e
    have := deltaCore_free (b := true) hw (by omega) (by simpa using c2.1.1) _ e ha
    simp only [Move.times, Move.rev]
    simpa using this.symm
  case toOrder0 =>
    obtain ⟨a1, a2, a3, a4, a5⟩ := toOrder0_count (P := P) (d := d) u _ e ha
    have hd : NoDelta d := by
      have := h0' a1
      unfold NoDelta at this ⊢
      rwa [a2, a3] at this
    have e1 := free_one h a4 a5 hd
    have e2 : freeTimes out.d = 0 := by unfold freeTimes; rw [if_pos a1]
    simp only [Move.times, Move.rev]
    omega
  case backToOrder1 r t1 t2 s1 s2 =>
    obtain ⟨a1, a2, a3, a4, a5⟩ := back_count (P := P) (d := d) u _ e ha
    have hd : NoDelta out.d := by
      have := h0 a5
      unfold NoDelta at this ⊢
      rwa [a2, a3]
    have e1 := free_one h' a1 a4 hd
    have e2 : freeTimes d = 0 := by unfold freeTimes; rw [if_pos a5]
    simp only [Move.times, Move.rev]
    omega
  case toGGGammaG g t =>
    have hg : ¬ (d.order = 0 ∨ d.worm.exist = true ∨ d.hasGamma ≠ 0) := fun c => hsk (by simp only [Move.run]; rw [if_pos c])
    simp only [not_or, not_not] at hg
    have := calm trivial
    rw [this]
    unfold freeTimes
    simp [Move.gammaAfter, Move.times, Move.rev, hg.1, hg.2.2]
  case toWWGammaW g t r =>
    have hg : ¬ (d.order = 0 ∨ d.worm.exist = true ∨ d.hasGamma ≠ 0) := fun c => hsk (by simp only [Move.run]; rw [if_pos c])
    simp only [not_or, not_not] at hg
    have := calm trivial
    rw [this]
    unfold freeTimes
    simp [Move.gammaAfter, Move.times, Move.rev, hg.1, hg.2.2]
  case fromGGGammaG =>
    have hg : ¬ (d.order = 0 ∨ d.worm.exist = true ∨ d.hasGamma ≠ 1) := fun c => hsk (by simp only [Move.run]; rw [if_pos c])
    simp only [not_or, not_not] at hg
    have := calm trivial
    rw [this]
    unfold freeTimes
    simp [Move.gammaAfter, Move.times, Move.rev, hg.1, hg.2.2]
  case fromWWGammaW =>
    have hg : ¬ (d.order = 0 ∨ d.worm.exist = true ∨ d.hasGamma ≠ 2) := fun c => hsk (by simp only [Move.run]; rw [if_pos c])
    simp only [not_or, not_not] at hg
    have := calm trivial
    rw [this]
    unfold freeTimes
    simp [Move.gammaAfter, Move.times, Move.rev, hg.1, hg.2.2]
  all_goals
    rw [ord trivial rfl]
    simp only [Move.times, Move.rev]

end
end Feyn
