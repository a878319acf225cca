import Verif.Proof.StatMoves

/-! The reverse of a move in other cells; components are determined by the momenta of the propagators. -/

namespace Feyn

set_option linter.unusedSectionVars false
set_option linter.unusedSimpArgs false

section
variable {Q F : Type} [Field Q] [LinearOrder Q] [IsStrictOrderedRing Q] [Field F]
variable {P : Params Q F} {d d' : Diag Q F} {σ : Ren}

theorem not_skip {m : Move Q} {u : Q} {out : Out Q F} (e : m.run P d u = .ok out) (ha : out.tag = .accept) :
    m.run P d u ≠ skip d := fun q => skip_not_accept (q ▸ e) ha

theorem Move.rev_act (hi : Inv P d) (S : Alike BSet σ d d') {m : Move Q} (hm : m.Valid P d) {u : Q} {out : Out Q F}
    (e : m.run P d u = .ok out) (ha : out.tag = .accept) (h0 : m.op ≠ .toOrder0) :
    (m.act σ).rev d' = (m.rev d).act σ := by
  have hsk := not_skip e ha
  obtain ⟨-, hm⟩ := hm
  have T := hi.topo
  cases m
  case deleteWorm =>
    have he : d.worm.exist = true := by
      by_contra c
      exact hsk (by simp only [Move.run, Bool.not_eq_true] at c ⊢; rw [if_pos (Or.inr c)])
    simp only [Move.act, Move.rev]
    rw [S.ira he, S.vW _ (hi.worm.ira_mem he), S.k he, S.dSpin he]
  case del δ dir =>
    have he : d.worm.exist = true := by
      by_contra c
      exact hsk (by simp only [Move.run, Bool.not_eq_true] at c ⊢; rw [if_pos c])
    have v1 := hi.worm.ira_mem he
    have v2 := hi.worm.masha_mem he
    have g1 := T.vG_mem _ v1 dir
    have g2 := T.vG_mem _ v2 dir
    have a1 := T.gV_mem _ g1 dir
    have a2 := T.gV_mem _ g2 dir
    simp only [Move.act, Move.rev]
    rw [S.ira he, S.masha he, S.vG _ v1, S.vG _ v2, S.gV _ g1, S.gV _ g2, S.vW _ a1, S.wK _ (T.vW_mem _ a1), S.vDir _ a1,
      S.tau _ a1, S.tau _ a2]
  case changeTau v t => simp only [Move.act, Move.rev]; rw [S.tau _ hm.1]
  case changeRLoop v t => simp only [Move.act, Move.rev]; rw [S.r _ hm.1]
  case g2w w =>
    have he : d.measG = true := by
      by_contra c
      exact hsk (by simp only [Move.run, Bool.not_eq_true] at c ⊢; rw [if_pos (Or.inr (Or.inr c))])
    simp only [Move.act, Move.rev]; rw [S.gMeasure he]
  case w2g w =>
    have he : d.measG = false := by
      by_contra c
      exact hsk (by simp only [Move.run, Bool.not_eq_false] at c ⊢; rw [if_pos (Or.inr (Or.inr c))])
    simp only [Move.act, Move.rev]; rw [S.wMeasure he]
  case cont2delta w =>
    simp only [Move.act, Move.rev]
    rw [S.wV _ hm, S.tau _ (T.wV_mem _ hm _)]
  case toOrder0 => exact absurd rfl h0
  case fromGGGammaG =>
    have he : d.hasGamma = 1 := by
      by_contra c
      exact hsk (by simp only [Move.run]; rw [if_pos (Or.inr (Or.inr c))])
    obtain ⟨g, hg, hgg⟩ := hi.gamma.g_ex he
    obtain ⟨-, e1, -⟩ := (hi.gamma.g_flag g hg).1 hgg
    simp only [Move.act, Move.rev]
    rw [S.vin (by omega), S.ext (by omega), e1]
    rfl
  case fromWWGammaW =>
    have he : d.hasGamma = 2 := by
      by_contra c
      exact hsk (by simp only [Move.run]; rw [if_pos (Or.inr (Or.inr c))])
    obtain ⟨g, hg, hgg⟩ := hi.gamma.w_ex he
    obtain ⟨-, e1, -⟩ := (hi.gamma.w_flag g hg).1 hgg
    simp only [Move.act, Move.rev]
    rw [S.vin (by omega), S.ext (by omega), e1]
    rfl
  all_goals rfl

/-- The same vertices and lines, joined in the same way, with the same fermion momenta. -/
def SameFrame (d d' : Diag Q F) : Prop :=
  d'.G = d.G ∧ d'.Ver = d.Ver ∧ d'.W = d.W ∧ d'.sh = d.sh ∧ d'.mo.gK = d.mo.gK

/-- Updates that choose a line or a vertex, and those between order 0 and order 1. -/
def Move.Keeps : Move Q → Prop
  | .createWorm .. | .changeTau .. | .changeRLoop .. | .g2w _ | .w2g _ | .delta2cont .. | .cont2delta _ | .toOrder0
  | .backToOrder1 .. | .toGGGammaG .. | .toWWGammaW .. => True
  | _ => False

theorem foldl_loopAssign_frame (newR : Site) (l : List (ℕ × F × F)) (d : Diag Q F) :
    SameFrame d (l.foldl (loopAssign newR) d) := by
  induction l generalizing d with
  | nil => exact ⟨rfl, rfl, rfl, rfl, rfl⟩
  | cons a as ih => exact ih (loopAssign newR d a)

section
attribute [local irreducible] metropolis

theorem Move.frame {m : Move Q} (hk : m.Keeps) (u : Q) : (m.run P d u).All (Acc (SameFrame d)) := by
  cases m <;> simp only [Move.Keeps] at hk
  case createWorm => unfold Move.run createWormCore; peelA; exact ⟨rfl, rfl, rfl, rfl, rfl⟩
  case changeTau => unfold Move.run changeTauCore; peelA; exact ⟨rfl, rfl, rfl, rfl, rfl⟩
  case g2w => unfold Move.run g2wCore; peelA; exact ⟨rfl, rfl, rfl, rfl, rfl⟩
  case w2g => unfold Move.run w2gCore; peelA; exact ⟨rfl, rfl, rfl, rfl, rfl⟩
  case delta2cont => unfold Move.run delta2contCore deltaCore; peelA; exact ⟨rfl, rfl, rfl, rfl, rfl⟩
  case cont2delta => unfold Move.run cont2deltaCore deltaCore; peelA; exact ⟨rfl, rfl, rfl, rfl, rfl⟩
  case toOrder0 => unfold Move.run toOrder0Core; peelA; exact ⟨rfl, rfl, rfl, rfl, rfl⟩
  case backToOrder1 => unfold Move.run backToOrder1Core; peelA; exact ⟨rfl, rfl, rfl, rfl, rfl⟩
  case toGGGammaG => unfold Move.run toGGGammaGCore; peelA; exact ⟨rfl, rfl, rfl, rfl, rfl⟩
  case toWWGammaW => unfold Move.run toWWGammaWCore; peelA; exact ⟨rfl, rfl, rfl, rfl, rfl⟩
  case changeRLoop =>
    unfold Move.run
    refine Res.all_ite (fun _ => acc_skip) (fun c => ?_)
    refine Res.all_ite (fun _ => Res.all_abort) (fun c2 => ?_)
    refine Res.all_bind fun v0 _ => ?_
    refine Res.all_bind fun res _ => ?_
    cases res with
    | none => exact acc_skip
    | some p =>
      obtain ⟨vs, fw⟩ := p
      dsimp only
      unfold changeRLoopCore
      peelA
      exact foldl_loopAssign_frame _ _ _

end

/-- A line or vertex is determined by the momenta of the propagators. -/
theorem names_unique {d₁ d₂ e : Diag Q F} (hi : Inv P d) (f1 : SameFrame d d₁) (f2 : SameFrame d d₂)
    {fV₁ fG₁ fW₁ fV₂ fG₂ fW₂ : ℕ → ℕ} (s1 : SameState d₁ e fV₁ fG₁ fW₁) (s2 : SameState d₂ e fV₂ fG₂ fW₂) :
    (∀ g ∈ d.G.live, ∀ g' ∈ d.G.live, fG₁ g = fG₂ g' → g = g') ∧
    (∀ v ∈ d.Ver.live, ∀ v' ∈ d.Ver.live, fV₁ v = fV₂ v' → v = v') ∧
    (∀ w ∈ d.W.live, ∀ w' ∈ d.W.live, fW₁ w = fW₂ w' → w = w') := by
  obtain ⟨a1, a2, a3, a4, a5⟩ := f1
  obtain ⟨b1, b2, b3, b4, b5⟩ := f2
  have T := hi.topo
  have hG : ∀ g ∈ d.G.live, ∀ g' ∈ d.G.live, fG₁ g = fG₂ g' → g = g' := by
    intro g hg g' hg' q
    have x1 := s1.gK g (a1 ▸ hg)
    have x2 := s2.gK g' (b1 ▸ hg')
    rw [a5] at x1
    rw [b5, ← q, x1] at x2
    exact hi.ghash.inj g hg g' hg' x2
  have hV : ∀ v ∈ d.Ver.live, ∀ v' ∈ d.Ver.live, fV₁ v = fV₂ v' → v = v' := by
    intro v hv v' hv' q
    have x1 := s1.vG v (a2 ▸ hv) IN
    have x2 := s2.vG v' (b2 ▸ hv') IN
    rw [a4] at x1
    rw [b4, ← q, x1] at x2
    have := hG _ (T.vG_mem v hv IN) _ (T.vG_mem v' hv' IN) x2
    have y := T.gV_vG v hv IN
    rw [this, T.gV_vG v' hv' IN] at y
    exact y.symm
  refine ⟨hG, hV, ?_⟩
  intro v hv v' hv' q
  have x1 := s1.wV v (a3 ▸ hv) IN
  have x2 := s2.wV v' (b3 ▸ hv') IN
  rw [a4] at x1
  rw [b4, ← q, x1] at x2
  have := hV _ (T.wV_mem v hv IN) _ (T.wV_mem v' hv' IN) x2
  have y := T.vW_wV v hv IN
  rw [this, T.vW_wV v' hv' IN] at y
  exact y.symm

end
end Feyn
