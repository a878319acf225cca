import Mathlib.Tactic.FieldSimp
import Verif.Spec.Stationary
import Verif.Proof.Return

/-! The moves of a step: which they are, and with which probability each is drawn. -/

namespace Feyn

set_option linter.unusedSectionVars false
set_option linter.unusedSimpArgs false

theorem mem_both (b : Bool) : b ∈ both := by cases b <;> decide

theorem mem_allOps (op : Op) : op ∈ allOps := by cases op <;> decide

theorem mem_allK {k : ℤ} : k ∈ allK ↔ InK k := by simp [allK, InK]

theorem card_allK : allK.card = 20001 := by simp [allK]

theorem card_both : both.card = 2 := rfl

section
variable {Q F : Type} [Field Q] [LinearOrder Q] [IsStrictOrderedRing Q] [Field F]
variable {P : Params Q F} {d : Diag Q F}

theorem mem_timeGrid {t : Q} : t ∈ timeGrid P ↔ GridTime P t := by
  unfold timeGrid GridTime
  rw [Finset.mem_image]
  constructor
  · rintro ⟨n, h1, h2⟩; exact ⟨n, Finset.mem_range.1 h1, h2.symm⟩
  · rintro ⟨n, h1, h2⟩; exact ⟨n, Finset.mem_range.2 h1, h2.symm⟩

theorem card_timeGrid (hP : P.Wf) : (timeGrid P).card = 4294967296 := by
  unfold timeGrid
  rw [Finset.card_image_of_injective, Finset.card_range]
  intro a b h
  have hb := hP.beta_pos.ne'
  have h' : (a : Q) / 4294967296 * P.beta = (b : Q) / 4294967296 * P.beta := h
  have h2 := mul_right_cancel₀ hb h'
  rw [div_left_inj' (by norm_num)] at h2
  exact_mod_cast h2

theorem mem_allSites {r : Site} : r ∈ allSites P ↔ SiteIn P r := by
  unfold allSites SiteIn
  simp only [Finset.mem_image, Finset.mem_product, Finset.mem_range, Prod.exists]
  constructor
  · rintro ⟨a, b, c, ⟨h1, h2, h3⟩, rfl⟩
    dsimp only
    omega
  · rintro ⟨h1, h2, h3, h4, h5, h6⟩
    refine ⟨r.sub.toNat, r.x.toNat, r.y.toNat, ⟨by omega, by omega, by omega⟩, ?_⟩
    cases r
    simp only [Site.mk.injEq] at *
    omega

theorem card_allSites : (allSites P).card = P.lx * P.ly * P.nsub := by
  unfold allSites
  rw [Finset.card_image_of_injective, Finset.card_product, Finset.card_product, Finset.card_range, Finset.card_range,
    Finset.card_range]
  · ring
  · rintro ⟨a, b, c⟩ ⟨a', b', c'⟩ h
    simp only [Site.mk.injEq, Nat.cast_inj] at h
    simp [h]

theorem GridTime.in (hP : P.Wf) {t : Q} (h : GridTime P t) : TauIn P t := by
  obtain ⟨n, hn, rfl⟩ := h
  have hb := hP.beta_pos
  have h1 : (n : Q) < 4294967296 := by exact_mod_cast hn
  refine ⟨by positivity, ?_⟩
  have h2 : (n : Q) / 4294967296 < 1 := by rw [div_lt_one (by norm_num)]; exact h1
  exact mul_lt_of_lt_one_left hb h2

theorem mem_movesOf (hP : P.Wf) {m : Move Q} {op : Op} (ho : op.idx < numOps P) :
    m ∈ movesOf P d op ↔ m.op = op ∧ m.Valid P d ∧ m.Times (GridTime P) := by
  constructor
  · intro h
    cases op <;> simp only [movesOf, Finset.mem_image, Finset.mem_product, Finset.mem_singleton, Prod.exists, mem_both, mem_allK,
      mem_timeGrid, mem_allSites, Finset.notMem_empty, Finset.mem_insert, true_and, and_true] at h
    case createWorm =>
      obtain ⟨w, k, s, ⟨h1, h2, h3⟩, rfl⟩ := h
      exact ⟨rfl, ⟨ho, h1, h2, h3⟩, trivial⟩
    case addInteraction =>
      obtain ⟨k, a, b, t, t', ⟨h1, h2, h3⟩, rfl⟩ := h
      exact ⟨rfl, ⟨ho, h1, h2.in hP, h3.in hP, by simp⟩, h2, h3⟩
    case addDelta =>
      obtain ⟨k, a, b, t, ⟨h1, h2⟩, rfl⟩ := h
      exact ⟨rfl, ⟨ho, h1, h2.in hP, h2.in hP, fun _ => rfl⟩, h2, h2⟩
    case changeTau =>
      obtain ⟨v, t, ⟨h1, h2⟩, rfl⟩ := h
      exact ⟨rfl, ⟨ho, h1, h2.in hP⟩, h2⟩
    case changeRLoop =>
      obtain ⟨v, t, ⟨h1, h2⟩, rfl⟩ := h
      exact ⟨rfl, ⟨ho, h1, h2⟩, trivial⟩
    case delta2cont =>
      obtain ⟨v, t, ⟨h1, h2⟩, rfl⟩ := h
      exact ⟨rfl, ⟨ho, h1, h2.in hP⟩, h2⟩
    case g2w =>
      obtain ⟨v, h1, rfl⟩ := h
      exact ⟨rfl, ⟨ho, h1⟩, trivial⟩
    case w2g =>
      obtain ⟨v, h1, rfl⟩ := h
      exact ⟨rfl, ⟨ho, h1⟩, trivial⟩
    case cont2delta =>
      obtain ⟨v, h1, rfl⟩ := h
      exact ⟨rfl, ⟨ho, h1⟩, trivial⟩
    case backToOrder1 =>
      obtain ⟨r, t, t', a, b, ⟨h1, h2, h3⟩, rfl⟩ := h
      exact ⟨rfl, ⟨ho, h1, h2.in hP, h3.in hP⟩, h2, h3⟩
    case toGGGammaG =>
      obtain ⟨v, t, ⟨h1, h2⟩, rfl⟩ := h
      exact ⟨rfl, ⟨ho, h1, h2.in hP⟩, h2⟩
    case toWWGammaW =>
      obtain ⟨v, t, r, ⟨h1, h2, h3⟩, rfl⟩ := h
      exact ⟨rfl, ⟨ho, h1, h2.in hP, h3⟩, h2⟩
    all_goals
      first
      | (subst h; exact ⟨rfl, ⟨ho, trivial⟩, trivial⟩)
      | (obtain ⟨_, rfl⟩ := h; exact ⟨rfl, ⟨ho, trivial⟩, trivial⟩)
  · rintro ⟨rfl, ⟨-, hv⟩, ht⟩
    cases m
    case add δ k a b t t' =>
      cases δ
      · simp only [Move.op, movesOf, Bool.false_eq_true, if_false, Finset.mem_image, Finset.mem_product, Prod.exists, mem_both, mem_allK,
          mem_timeGrid]
        exact ⟨k, a, b, t, t', ⟨hv.1, trivial, trivial, ht.1, ht.2⟩, rfl⟩
      · obtain rfl := hv.2.2.2 rfl
        simp only [Move.op, movesOf, if_true, Finset.mem_image, Finset.mem_product, Prod.exists, mem_both, mem_allK, mem_timeGrid]
        exact ⟨k, a, b, _, ⟨hv.1, trivial, trivial, ht.1⟩, rfl⟩
    case del δ a =>
      cases δ <;> simp [Move.op, movesOf, mem_both]
    all_goals
      simp only [Move.Times] at ht
      simp only at hv
      simp [Move.op, movesOf, mem_both, mem_allK, mem_timeGrid, mem_allSites, hv, ht]

theorem mem_allMoves (hP : P.Wf) {m : Move Q} : m ∈ allMoves P d ↔ m.Valid P d ∧ m.Times (GridTime P) := by
  unfold allMoves
  rw [Finset.mem_biUnion]
  constructor
  · rintro ⟨op, h1, h2⟩
    exact ((mem_movesOf hP (Finset.mem_filter.1 h1).2).1 h2).2
  · intro h
    exact ⟨m.op, Finset.mem_filter.2 ⟨mem_allOps _, h.1.1⟩, (mem_movesOf hP h.1.1).2 ⟨rfl, h⟩⟩

/-- Each of the choices of an update is drawn, with total probability `1 / numOps`. -/
theorem sum_movesOf (hP : P.Wf) (h : Inv P d) {op : Op} (h1 : op ≠ .changeRVertex) (h2 : op ≠ .changeSpin) :
    ∑ m ∈ movesOf P d op, m.chance P d = 1 / (numOps P : Q) := by
  have hc := h.count
  have hb := hP.beta_pos.ne'
  have hn := (numOps_cast_pos P).ne'
  have hW : (d.W.avail : Q) ≠ 0 := by have := hc.n_pos; exact_mod_cast (by omega : d.W.avail ≠ 0)
  have hG : (d.G.avail : Q) ≠ 0 := by have := hc.n_pos; have := hc.g; exact_mod_cast (by omega : d.G.avail ≠ 0)
  have hV : (d.Ver.avail : Q) ≠ 0 := by have := hc.n_pos; have := hc.ver; exact_mod_cast (by omega : d.Ver.avail ≠ 0)
  have hx : (P.lx : Q) ≠ 0 := by exact_mod_cast hP.lx_pos.ne'
  have hy : (P.ly : Q) ≠ 0 := by exact_mod_cast hP.ly_pos.ne'
  have hz : (P.nsub : Q) ≠ 0 := by exact_mod_cast hP.nsub_pos.ne'
  have k1 := Bundle.card_live hc.wWf
  have k2 := Bundle.card_live hc.gWf
  have k3 := Bundle.card_live hc.verWf
  have k4 := card_timeGrid hP
  have k5 := card_allSites (P := P)
  cases op <;> simp only [movesOf, Finset.sum_singleton]
  case changeRVertex => exact absurd rfl h1
  case changeSpin => exact absurd rfl h2
  all_goals
    first
    | (rw [Finset.sum_image (by
        intro x _ y _ hxy
        revert hxy
        simp +contextual [Prod.ext_iff])])
    | skip
  all_goals
    simp only [Move.chance, Move.density, Move.times, timeStep, Finset.sum_const, Finset.card_product, card_allK, card_both, k1, k2, k3,
      k4, k5, Finset.card_pair (show (1 : ℤ) ≠ -1 by decide), nsmul_eq_mul, if_true, if_false, Bool.false_eq_true]
    push_cast
    try field_simp
  all_goals try norm_num

/-- A call that depends on the random number through the comparison with the acceptance ratio only. -/
def OneDraw (r : Q → Res (Out Q F)) : Prop :=
  (∃ x : Res (Out Q F), (∀ o, x = .ok o → o.tag ≠ .accept) ∧ ∀ u, r u = x) ∨
  ∃ d rej p acc, ∀ u, r u = metropolis (Q := Q) (F := F) d rej p u acc

theorem oneDraw_skip (d : Diag Q F) : OneDraw fun _ : Q => skip d :=
  Or.inl ⟨_, fun _ e h => skip_not_accept e h, fun _ => rfl⟩

theorem oneDraw_abort : OneDraw fun _ : Q => (.abort : Res (Out Q F)) := Or.inl ⟨_, fun _ e => (by cases e), fun _ => rfl⟩
theorem oneDraw_ub : OneDraw fun _ : Q => (.ub : Res (Out Q F)) := Or.inl ⟨_, fun _ e => (by cases e), fun _ => rfl⟩

theorem oneDraw_met (d rej : Diag Q F) (p : Q) (acc : Res (Diag Q F)) : OneDraw fun u => metropolis d rej p u acc :=
  Or.inr ⟨_, _, _, _, fun _ => rfl⟩

theorem oneDraw_reject (d : Diag Q F) (p : Q) : OneDraw fun _ : Q => .ok ⟨.reject, p, d⟩ :=
  Or.inl ⟨_, fun _ e h => (by cases e; cases h), fun _ => rfl⟩

theorem oneDraw_bind {α : Type} {x : Res α} {f : α → Q → Res (Out Q F)} (h : ∀ a, OneDraw (f a)) :
    OneDraw fun u => x >>= fun a => f a u := by
  cases x with
  | ok a => exact h a
  | abort => exact oneDraw_abort
  | ub => exact oneDraw_ub

theorem oneDraw_ite {c : Prop} [Decidable c] {f g : Q → Res (Out Q F)} (hf : OneDraw f) (hg : OneDraw g) :
    OneDraw fun u => if c then f u else g u := by
  by_cases h : c
  · simpa only [if_pos h] using hf
  · simpa only [if_neg h] using hg

macro "peelD" : tactic => `(tactic|
  repeat' first
    | exact oneDraw_ub
    | exact oneDraw_abort
    | exact oneDraw_skip _
    | exact oneDraw_reject _ _
    | exact oneDraw_met _ _ _ _
    | (refine oneDraw_bind fun _ => ?_)
    | (refine oneDraw_ite ?_ ?_)
    | dsimp only)

theorem Move.oneDraw (m : Move Q) : OneDraw (m.run P d) := by
  cases m
  case createWorm => unfold Move.run createWormCore; peelD
  case deleteWorm => unfold Move.run deleteWormCore; peelD
  case moveWormG => unfold Move.run moveWormGCore; peelD
  case moveWormW => unfold Move.run moveWormWCore; peelD
  case reconnect => unfold Move.run reconnectCore; peelD
  case add => unfold Move.run addCore; peelD
  case del => unfold Move.run delCore; peelD
  case changeTau => unfold Move.run changeTauCore; peelD
  case changeRLoop =>
    unfold Move.run
    dsimp only
    refine oneDraw_ite (oneDraw_skip _) (oneDraw_ite oneDraw_abort ?_)
    refine oneDraw_bind fun _ => oneDraw_bind fun res => ?_
    cases res with
    | none => exact oneDraw_skip _
    | some p =>
      obtain ⟨vs, fw⟩ := p
      dsimp only
      unfold changeRLoopCore
      peelD
  case g2w => unfold Move.run g2wCore; peelD
  case w2g => unfold Move.run w2gCore; peelD
  case delta2cont => unfold Move.run delta2contCore deltaCore; peelD
  case cont2delta => unfold Move.run cont2deltaCore deltaCore; peelD
  case toOrder0 => unfold Move.run toOrder0Core; peelD
  case backToOrder1 => unfold Move.run backToOrder1Core; peelD
  case toGGGammaG => unfold Move.run toGGGammaGCore; peelD
  case fromGGGammaG => unfold Move.run fromGGGammaGCore; peelD
  case toWWGammaW => unfold Move.run toWWGammaWCore; peelD
  case fromWWGammaW => unfold Move.run fromWWGammaWCore; peelD

/-- What `Move.accepted` says about the call. -/
theorem accepted_some {m : Move Q} {a : Q} {d' : Diag Q F} (h : m.accepted P d = some (a, d')) :
    ∃ p, 0 < p ∧ a = min 1 p ∧ ∀ u, 0 ≤ u → u < 1 →
      (u < a → m.run P d u = .ok ⟨.accept, p, d'⟩) ∧ (a ≤ u → ∃ out, m.run P d u = .ok out ∧ out.tag ≠ .accept) := by
  unfold Move.accepted at h
  rcases Move.oneDraw (P := P) (d := d) m with ⟨x, h1, h2⟩ | ⟨d0, rej, p, acc, h2⟩
  · rw [h2] at h
    cases x with
    | ok o => simp [h1 o rfl] at h
    | abort => simp at h
    | ub => simp at h
  · rw [h2] at h
    refine ⟨p, ?_⟩
    unfold metropolis at h h2
    by_cases c1 : d0.order < MAX_ORDER
    swap
    · simp [c1] at h
    by_cases c2 : 1 ≤ p ∨ 0 < p
    swap
    · simp [c1, c2] at h
    have hp : 0 < p := by
      rcases c2 with c | c
      · exact lt_of_lt_of_le one_pos c
      · exact c
    cases acc with
    | abort => simp [c1, c2] at h
    | ub => simp [c1, c2] at h
    | ok y =>
      simp only [c1, c2, if_true, Res.ok_bind, Option.some.injEq, Prod.mk.injEq] at h
      obtain ⟨rfl, rfl⟩ := h
      refine ⟨hp, rfl, fun u hu hu1 => ⟨fun hl => ?_, fun hl => ?_⟩⟩
      · rw [h2 u, if_pos c1, if_pos (Or.inr (lt_of_lt_of_le hl (min_le_right _ _)))]; rfl
      · have : ¬ (1 ≤ p ∨ u < p) := by
          rintro (q | q)
          · rw [min_eq_left q] at hl; exact absurd hu1 (not_lt.2 hl)
          · rcases min_le_iff.1 hl with q' | q'
            · exact absurd hu1 (not_lt.2 q')
            · exact absurd q (not_lt.2 q')
        rw [h2 u, if_pos c1, if_neg this]
        exact ⟨_, rfl, by simp⟩

theorem accepted_none {m : Move Q} (h : m.accepted P d = none) {u : Q} (hu : 0 ≤ u) {out : Out Q F}
    (e : m.run P d u = .ok out) : out.tag ≠ .accept := by
  unfold Move.accepted at h
  rcases Move.oneDraw (P := P) (d := d) m with ⟨x, h1, h2⟩ | ⟨d0, rej, p, acc, h2⟩
  · rw [h2] at e
    exact h1 _ e
  · rw [h2] at e h
    intro ha
    have hp := metropolis_pos hu e ha
    unfold metropolis at h e
    split_ifs at e with c1 c2
    · cases acc with
      | abort => cases e
      | ub => cases e
      | ok y =>
        cases e
        have : 1 ≤ p ∨ 0 < p := Or.inr hp
        simp [c1, this] at h
    · cases e; cases ha

/-- `Move.accepted` is about the call with the smallest number. -/
theorem accepted_run {m : Move Q} {out : Out Q F} (e : m.run P d 0 = .ok out) (ha : out.tag = .accept) :
    m.accepted P d = some (min 1 out.prob, out.d) := by
  unfold Move.accepted
  rw [e]
  simp [ha]

theorem accepted_ex {m : Move Q} {a : Q} {d' : Diag Q F} (h : m.accepted P d = some (a, d')) :
    ∃ out, m.run P d 0 = .ok out ∧ out.tag = .accept ∧ a = min 1 out.prob ∧ out.d = d' ∧ 0 < a := by
  obtain ⟨p, h1, h2, h3⟩ := accepted_some h
  have ha : 0 < a := by rw [h2]; exact lt_min one_pos h1
  exact ⟨_, (h3 0 le_rfl one_pos).1 ha, rfl, h2, rfl, ha⟩

end
end Feyn
