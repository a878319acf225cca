import Verif.Proof.Effect

/-! Worm pointers are only written while a worm is present: an update after which there is no worm leaves them alone. -/

namespace Feyn

set_option linter.unusedSectionVars false

section
variable {Q F : Type} [Field Q] [LinearOrder Q] [Field F]

/-- If no worm is present after the call, the worm pointers are those from before. -/
def SamePointers (d : Diag Q F) (out : Out Q F) : Prop :=
  out.d.worm.exist = false → out.d.worm.ira = d.worm.ira ∧ out.d.worm.masha = d.worm.masha

theorem pointers_skip {d : Diag Q F} : (skip d).All (SamePointers d) := all_skip fun _ => ⟨rfl, rfl⟩

theorem pointers_of {d d' : Diag Q F} {t : Tag} {p : Q} (h : d'.worm.ira = d.worm.ira ∧ d'.worm.masha = d.worm.masha) :
    SamePointers d ⟨t, p, d'⟩ := fun _ => h

attribute [local irreducible] metropolis

/-- Peel a call. -/
macro "peelP" : tactic => `(tactic|
  repeat' first
    | exact Res.all_ub
    | exact Res.all_abort
    | exact pointers_skip
    | exact pointers_of ⟨rfl, rfl⟩
    | exact Res.all_ok (pointers_of ⟨rfl, rfl⟩)
    | (refine all_metropolis ?_ ?_)
    | (refine Res.all_bind fun _ _ => ?_)
    | (refine Res.all_ite (fun _ => ?_) (fun _ => ?_)))

theorem deleteWorm_pointers (P : Params Q F) (o : Words) (d : Diag Q F) : (deleteWorm P o d).All (SamePointers d) := by
  unfold deleteWorm deleteWormCore
  peelP

theorem changeTau_pointers (P : Params Q F) (o : Words) (d : Diag Q F) : (changeTau P o d).All (SamePointers d) := by
  unfold changeTau changeTauCore
  peelP

theorem g2w_pointers (P : Params Q F) (o : Words) (d : Diag Q F) : (g2w P o d).All (SamePointers d) := by
  unfold g2w g2wCore
  peelP

theorem w2g_pointers (P : Params Q F) (o : Words) (d : Diag Q F) : (w2g P o d).All (SamePointers d) := by
  unfold w2g w2gCore
  peelP

theorem delta2cont_pointers (P : Params Q F) (o : Words) (d : Diag Q F) : (delta2cont P o d).All (SamePointers d) := by
  unfold delta2cont delta2contCore deltaCore
  peelP

theorem cont2delta_pointers (P : Params Q F) (o : Words) (d : Diag Q F) : (cont2delta P o d).All (SamePointers d) := by
  unfold cont2delta cont2deltaCore deltaCore
  peelP

theorem toOrder0_pointers (P : Params Q F) (o : Words) (d : Diag Q F) : (toOrder0 P o d).All (SamePointers d) := by
  unfold toOrder0 toOrder0Core
  peelP

theorem backToOrder1_pointers (P : Params Q F) (o : Words) (d : Diag Q F) : (backToOrder1 P o d).All (SamePointers d) := by
  unfold backToOrder1 backToOrder1Core
  peelP

theorem toGGGammaG_pointers (P : Params Q F) (o : Words) (d : Diag Q F) : (toGGGammaG P o d).All (SamePointers d) := by
  unfold toGGGammaG toGGGammaGCore
  peelP

theorem fromGGGammaG_pointers (P : Params Q F) (o : Words) (d : Diag Q F) : (fromGGGammaG P o d).All (SamePointers d) := by
  unfold fromGGGammaG fromGGGammaGCore
  peelP

theorem toWWGammaW_pointers (P : Params Q F) (o : Words) (d : Diag Q F) : (toWWGammaW P o d).All (SamePointers d) := by
  unfold toWWGammaW toWWGammaWCore
  peelP

theorem fromWWGammaW_pointers (P : Params Q F) (o : Words) (d : Diag Q F) : (fromWWGammaW P o d).All (SamePointers d) := by
  unfold fromWWGammaW fromWWGammaWCore
  peelP

theorem changeRLoop_pointers (P : Params Q F) (o : Words) (d : Diag Q F) : (changeRLoop P o d).All (SamePointers d) := by
  unfold changeRLoop
  refine Res.all_ite (fun _ => pointers_skip) (fun c => ?_)
  refine Res.all_ite (fun _ => Res.all_abort) (fun c2 => ?_)
  refine Res.all_bind fun v0 _ => ?_
  refine Res.all_bind fun _ _ => ?_
  refine Res.all_bind fun res _ => ?_
  cases res with
  | none => exact pointers_skip
  | some p =>
    obtain ⟨vs, fw⟩ := p
    dsimp only
    unfold changeRLoopCore
    peelP
    obtain ⟨h1, h2, h3, h4⟩ := foldl_loopAssign_same (Q := Q) (F := F) _ _ _
    exact Res.all_ok (pointers_of (by rw [h2]; exact ⟨rfl, rfl⟩))

/-- Every update. -/
theorem runOp_pointers (P : Params Q F) (op : Op) (o : Words) (d : Diag Q F) : (runOp P op o d).All (SamePointers d) := by
  have worm : (op = .createWorm ∨ op.needWorm = true ∧ op ≠ .deleteWorm) → (runOp P op o d).All (SamePointers d) := by
    intro hop out e hx
    obtain ⟨h1, h2, h3⟩ := runOp_effect P op o d out e
    by_cases ht : out.tag = .accept
    · exfalso
      have := (h3 ht).2.1
      rw [hx] at this
      rcases hop with rfl | ⟨q1, q2⟩
      · simp [Op.newWorm] at this
      · have hw := (h2 (by rw [ht]; nofun)).2.1
        rw [q1] at hw
        rw [hw] at this
        cases op <;> first | exact q2 rfl | exact Bool.noConfusion (show false = true from q1) | exact Bool.noConfusion (show false = true from this)
    · rcases h1 ht with q | ⟨-, e, q⟩ <;> rw [q] <;> exact ⟨rfl, rfl⟩
  cases op
  case createWorm => exact worm (.inl rfl)
  case deleteWorm => exact deleteWorm_pointers P o d
  case changeTau => exact changeTau_pointers P o d
  case changeRLoop => exact changeRLoop_pointers P o d
  case g2w => exact g2w_pointers P o d
  case w2g => exact w2g_pointers P o d
  case delta2cont => exact delta2cont_pointers P o d
  case cont2delta => exact cont2delta_pointers P o d
  case toOrder0 => exact toOrder0_pointers P o d
  case backToOrder1 => exact backToOrder1_pointers P o d
  case toGGGammaG => exact toGGGammaG_pointers P o d
  case fromGGGammaG => exact fromGGGammaG_pointers P o d
  case toWWGammaW => exact toWWGammaW_pointers P o d
  case fromWWGammaW => exact fromWWGammaW_pointers P o d
  all_goals first
    | exact worm (.inr ⟨rfl, nofun⟩)
    | exact pointers_skip

end
end Feyn
