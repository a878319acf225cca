import Verif.Proof.Basic
import Verif.Model.Chain

/-! What an accepted update does to the order, the worm flag, the measuring flag and the status word.
These hold for every diagram, consistent or not. -/

namespace Feyn

set_option linter.unusedSectionVars false
set_option linter.unusedSimpArgs false

/-- If the call returns normally then its value satisfies `p`. -/
def Res.All {α : Type} (p : α → Prop) (r : Res α) : Prop := ∀ a, r = .ok a → p a

theorem Res.all_ok {α : Type} {p : α → Prop} {a : α} (h : p a) : (Res.ok a).All p := by
  intro b e; cases e; exact h

theorem Res.all_ub {α : Type} {p : α → Prop} : (Res.ub : Res α).All p := by intro b e; cases e

theorem Res.all_abort {α : Type} {p : α → Prop} : (Res.abort : Res α).All p := by intro b e; cases e

theorem Res.all_bind {α β : Type} {p : β → Prop} {x : Res α} {f : α → Res β}
    (h : ∀ a, x = .ok a → (f a).All p) : (x >>= f).All p := by
  cases x with
  | ok a => exact h a rfl
  | abort => exact all_abort
  | ub => exact all_ub

theorem Res.all_ite {α : Type} {p : α → Prop} {c : Prop} [Decidable c] {x y : Res α}
    (h1 : c → x.All p) (h2 : ¬ c → y.All p) : (if c then x else y).All p := by
  split
  · exact h1 ‹_›
  · exact h2 ‹_›

section
variable {Q F : Type} [Field Q] [LinearOrder Q] [Field F]

theorem all_skip {d : Diag Q F} {p : Out Q F → Prop} (h : p ⟨.skip, 0, d⟩) : (skip d).All p := Res.all_ok h

theorem all_metropolis {d rej : Diag Q F} {prob u : Q} {acc : Res (Diag Q F)} {p : Out Q F → Prop}
    (h1 : p ⟨.reject, prob, rej⟩) (h2 : acc.All fun d' => p ⟨.accept, prob, d'⟩) :
    (metropolis d rej prob u acc).All p := by
  unfold metropolis
  refine Res.all_ite (fun _ => Res.all_ite (fun _ => Res.all_bind fun a e => Res.all_ok (h2 a e)) fun _ => Res.all_ok h1)
    fun _ => Res.all_ub

/-- Change of the order by an accepted update. -/
def Op.newOrder (op : Op) (n : ℕ) : ℕ :=
  match op with
  | .addInteraction | .addDelta => n + 1
  | .delInteraction | .delDelta => n - 1
  | .toOrder0 => 0
  | .backToOrder1 => 1
  | _ => n

/-- Worm flag after an accepted update. -/
def Op.newWorm (op : Op) (b : Bool) : Bool :=
  match op with
  | .createWorm => true
  | .deleteWorm => false
  | _ => b

/-- Measuring flag after an accepted update. -/
def Op.newMeasG (op : Op) (b : Bool) : Bool :=
  match op with
  | .g2w => false
  | .w2g => true
  | _ => b

/-- Status word after an accepted update. -/
def Op.newGamma (op : Op) (n : ℕ) : ℕ :=
  match op with
  | .toGGGammaG => 1
  | .toWWGammaW => 2
  | .fromGGGammaG | .fromWWGammaW => 0
  | _ => n

/-- Orders from which an update can be proposed. -/
def Op.fromOrder (P : Params Q F) (op : Op) (n : ℕ) : Prop :=
  match op with
  | .addInteraction | .addDelta => n ≠ 0 ∧ n < P.maxOrd
  | .delInteraction | .delDelta => 1 < n
  | .toOrder0 => n = 1
  | .backToOrder1 => n = 0
  | _ => n ≠ 0

/-- Worm flag with which an update can be proposed. -/
def Op.needWorm : Op → Bool
  | .deleteWorm | .moveWormG | .moveWormW | .reconnect | .addInteraction | .delInteraction | .addDelta | .delDelta => true
  | _ => false

/-- Kind of the measuring line with which an update can be proposed. -/
def Op.fromMeasG (op : Op) (b : Bool) : Prop :=
  match op with
  | .g2w => b = true
  | .w2g => b = false
  | _ => True

/-- Status word with which an update can be proposed. -/
def Op.fromGamma (op : Op) (n : ℕ) : Prop :=
  match op with
  | .g2w | .w2g | .toOrder0 | .backToOrder1 | .toGGGammaG | .toWWGammaW => n = 0
  | .fromGGGammaG => n = 1
  | .fromWWGammaW => n = 2
  | _ => True

/-- Conditions under which the operation is proposed. -/
def Op.Can (P : Params Q F) (op : Op) (d : Diag Q F) : Prop :=
  op.fromOrder P d.order ∧ d.worm.exist = op.needWorm ∧ op.fromMeasG d.measG ∧ op.fromGamma d.hasGamma

/-- A call that does not accept leaves the diagram alone, except that the external point may be overwritten if no
composite line uses it. -/
def Untouched (d d' : Diag Q F) : Prop := d' = d ∨ (d.hasGamma = 0 ∧ ∃ e, d' = { d with ext := e })

/-- Effect of a call. -/
def Effect (P : Params Q F) (op : Op) (d : Diag Q F) (out : Out Q F) : Prop :=
  (out.tag ≠ .accept → Untouched d out.d) ∧
  (out.tag ≠ .skip → op.Can P d) ∧
  (out.tag = .accept → out.d.order = op.newOrder d.order ∧ out.d.worm.exist = op.newWorm d.worm.exist ∧
    out.d.measG = op.newMeasG d.measG ∧ out.d.hasGamma = op.newGamma d.hasGamma)

theorem effect_skip {P : Params Q F} {op : Op} {d : Diag Q F} : (skip d).All (Effect P op d) :=
  all_skip ⟨fun _ => .inl rfl, fun h => absurd rfl h, fun h => by cases h⟩

theorem effect_reject {P : Params Q F} {op : Op} {d rej : Diag Q F} {prob : Q} (hc : op.Can P d)
    (h : rej = d) : Effect P op d ⟨.reject, prob, rej⟩ :=
  ⟨fun _ => .inl h, fun _ => hc, fun h => by cases h⟩

theorem effect_reject_ext {P : Params Q F} {op : Op} {d : Diag Q F} {prob : Q} {e : Ext Q} (hc : op.Can P d)
    (h : d.hasGamma = 0) : Effect P op d ⟨.reject, prob, { d with ext := e }⟩ :=
  ⟨fun _ => .inr ⟨h, e, rfl⟩, fun _ => hc, fun h => by cases h⟩

theorem effect_accept {P : Params Q F} {op : Op} {d d' : Diag Q F} {prob : Q} (hc : op.Can P d)
    (h : d'.order = op.newOrder d.order ∧ d'.worm.exist = op.newWorm d.worm.exist ∧
      d'.measG = op.newMeasG d.measG ∧ d'.hasGamma = op.newGamma d.hasGamma) :
    (Res.ok d').All fun d' => Effect P op d ⟨.accept, prob, d'⟩ :=
  Res.all_ok ⟨fun h => absurd rfl h, fun _ => hc, fun _ => h⟩

attribute [local irreducible] metropolis

/-- Peel binds, guards and early returns off a call; `hc` are the conditions of the guards. -/
macro "peel" hc:ident : tactic => `(tactic|
  repeat' first
    | exact Res.all_ub
    | exact Res.all_abort
    | exact effect_skip
    | exact effect_reject $hc rfl
    | exact effect_reject_ext $hc ($hc).2.2.2
    | exact effect_accept $hc ⟨rfl, rfl, rfl, rfl⟩
    | (refine all_metropolis ?_ ?_)
    | (refine Res.all_bind fun _ _ => ?_)
    | (refine Res.all_ite (fun _ => ?_) (fun _ => ?_)))

theorem createWorm_effect (P : Params Q F) (o : Words) (d : Diag Q F) :
    (createWorm P o d).All (Effect P .createWorm d) := by
  unfold createWorm
  refine Res.all_ite (fun _ => effect_skip) (fun c => ?_)
  have hc : Op.Can P .createWorm d := by simp [Op.Can, Op.fromOrder, Op.needWorm, Op.fromMeasG, Op.fromGamma]; simp at c; tauto
  unfold createWormCore
  peel hc

theorem deleteWorm_effect (P : Params Q F) (o : Words) (d : Diag Q F) :
    (deleteWorm P o d).All (Effect P .deleteWorm d) := by
  unfold deleteWorm
  refine Res.all_ite (fun _ => effect_skip) (fun c => ?_)
  have hc : Op.Can P .deleteWorm d := by simp [Op.Can, Op.fromOrder, Op.needWorm, Op.fromMeasG, Op.fromGamma]; simp at c; tauto
  unfold deleteWormCore
  peel hc

theorem moveWormG_effect (P : Params Q F) (o : Words) (d : Diag Q F) :
    (moveWormG P o d).All (Effect P .moveWormG d) := by
  unfold moveWormG
  refine Res.all_ite (fun _ => effect_skip) (fun c => ?_)
  have hc : Op.Can P .moveWormG d := by simp [Op.Can, Op.fromOrder, Op.needWorm, Op.fromMeasG, Op.fromGamma]; simp at c; tauto
  unfold moveWormGCore
  peel hc

theorem moveWormW_effect (P : Params Q F) (o : Words) (d : Diag Q F) :
    (moveWormW P o d).All (Effect P .moveWormW d) := by
  unfold moveWormW
  refine Res.all_ite (fun _ => effect_skip) (fun c => ?_)
  have hc : Op.Can P .moveWormW d := by simp [Op.Can, Op.fromOrder, Op.needWorm, Op.fromMeasG, Op.fromGamma]; simp at c; tauto
  unfold moveWormWCore
  peel hc

theorem reconnect_effect (P : Params Q F) (o : Words) (d : Diag Q F) :
    (reconnect P o d).All (Effect P .reconnect d) := by
  unfold reconnect
  refine Res.all_ite (fun _ => effect_skip) (fun c => ?_)
  have hc : Op.Can P .reconnect d := by simp [Op.Can, Op.fromOrder, Op.needWorm, Op.fromMeasG, Op.fromGamma]; simp at c; tauto
  unfold reconnectCore
  peel hc

theorem addInteraction_effect (P : Params Q F) (o : Words) (d : Diag Q F) :
    (addInteraction P o d).All (Effect P .addInteraction d) := by
  unfold addInteraction
  refine Res.all_ite (fun _ => effect_skip) (fun c => ?_)
  refine Res.all_ite (fun _ => effect_skip) (fun c2 => ?_)
  have hc : Op.Can P .addInteraction d := by simp [Op.Can, Op.fromOrder, Op.needWorm, Op.fromMeasG, Op.fromGamma]; simp at c c2; tauto
  unfold addCore
  peel hc

theorem delInteraction_effect (P : Params Q F) (o : Words) (d : Diag Q F) :
    (delInteraction P o d).All (Effect P .delInteraction d) := by
  unfold delInteraction
  refine Res.all_ite (fun _ => effect_skip) (fun c => ?_)
  refine Res.all_ite (fun _ => effect_skip) (fun c2 => ?_)
  have hc : Op.Can P .delInteraction d := by simp [Op.Can, Op.fromOrder, Op.needWorm, Op.fromMeasG, Op.fromGamma]; simp at c c2; tauto
  unfold delCore
  peel hc

theorem addDelta_effect (P : Params Q F) (o : Words) (d : Diag Q F) :
    (addDelta P o d).All (Effect P .addDelta d) := by
  unfold addDelta
  refine Res.all_ite (fun _ => effect_skip) (fun c => ?_)
  refine Res.all_ite (fun _ => effect_skip) (fun c2 => ?_)
  have hc : Op.Can P .addDelta d := by simp [Op.Can, Op.fromOrder, Op.needWorm, Op.fromMeasG, Op.fromGamma]; simp at c c2; tauto
  unfold addCore
  peel hc

theorem delDelta_effect (P : Params Q F) (o : Words) (d : Diag Q F) :
    (delDelta P o d).All (Effect P .delDelta d) := by
  unfold delDelta
  refine Res.all_ite (fun _ => effect_skip) (fun c => ?_)
  refine Res.all_ite (fun _ => effect_skip) (fun c2 => ?_)
  have hc : Op.Can P .delDelta d := by simp [Op.Can, Op.fromOrder, Op.needWorm, Op.fromMeasG, Op.fromGamma]; simp at c c2; tauto
  unfold delCore
  peel hc

theorem changeTau_effect (P : Params Q F) (o : Words) (d : Diag Q F) :
    (changeTau P o d).All (Effect P .changeTau d) := by
  unfold changeTau
  refine Res.all_ite (fun _ => effect_skip) (fun c => ?_)
  have hc : Op.Can P .changeTau d := by simp [Op.Can, Op.fromOrder, Op.needWorm, Op.fromMeasG, Op.fromGamma]; simp at c; tauto
  unfold changeTauCore
  peel hc

theorem g2w_effect (P : Params Q F) (o : Words) (d : Diag Q F) :
    (g2w P o d).All (Effect P .g2w d) := by
  unfold g2w
  refine Res.all_ite (fun _ => effect_skip) (fun c => ?_)
  refine Res.all_ite (fun _ => effect_skip) (fun c2 => ?_)
  have hc : Op.Can P .g2w d := by simp [Op.Can, Op.fromOrder, Op.needWorm, Op.fromMeasG, Op.fromGamma]; simp at c c2; tauto
  unfold g2wCore
  peel hc

theorem w2g_effect (P : Params Q F) (o : Words) (d : Diag Q F) :
    (w2g P o d).All (Effect P .w2g d) := by
  unfold w2g
  refine Res.all_ite (fun _ => effect_skip) (fun c => ?_)
  refine Res.all_ite (fun _ => effect_skip) (fun c2 => ?_)
  have hc : Op.Can P .w2g d := by simp [Op.Can, Op.fromOrder, Op.needWorm, Op.fromMeasG, Op.fromGamma]; simp at c c2; tauto
  unfold w2gCore
  peel hc

theorem delta2cont_effect (P : Params Q F) (o : Words) (d : Diag Q F) :
    (delta2cont P o d).All (Effect P .delta2cont d) := by
  unfold delta2cont
  refine Res.all_ite (fun _ => effect_skip) (fun c => ?_)
  have hc : Op.Can P .delta2cont d := by simp [Op.Can, Op.fromOrder, Op.needWorm, Op.fromMeasG, Op.fromGamma]; simp at c; exact ⟨by omega, c.2⟩
  unfold delta2contCore deltaCore
  peel hc

theorem cont2delta_effect (P : Params Q F) (o : Words) (d : Diag Q F) :
    (cont2delta P o d).All (Effect P .cont2delta d) := by
  unfold cont2delta
  refine Res.all_ite (fun _ => effect_skip) (fun c => ?_)
  have hc : Op.Can P .cont2delta d := by simp [Op.Can, Op.fromOrder, Op.needWorm, Op.fromMeasG, Op.fromGamma]; simp at c; exact ⟨by omega, c.2⟩
  unfold cont2deltaCore deltaCore
  peel hc

theorem toOrder0_effect (P : Params Q F) (o : Words) (d : Diag Q F) :
    (toOrder0 P o d).All (Effect P .toOrder0 d) := by
  unfold toOrder0
  refine Res.all_ite (fun _ => effect_skip) (fun c => ?_)
  refine Res.all_ite (fun _ => effect_skip) (fun c2 => ?_)
  have hc : Op.Can P .toOrder0 d := by simp [Op.Can, Op.fromOrder, Op.needWorm, Op.fromMeasG, Op.fromGamma]; simp at c c2; tauto
  unfold toOrder0Core
  peel hc

theorem backToOrder1_effect (P : Params Q F) (o : Words) (d : Diag Q F) :
    (backToOrder1 P o d).All (Effect P .backToOrder1 d) := by
  unfold backToOrder1
  refine Res.all_ite (fun _ => effect_skip) (fun c => ?_)
  refine Res.all_ite (fun _ => effect_skip) (fun c2 => ?_)
  have hc : Op.Can P .backToOrder1 d := by simp [Op.Can, Op.fromOrder, Op.needWorm, Op.fromMeasG, Op.fromGamma]; simp at c c2; tauto
  unfold backToOrder1Core
  peel hc

theorem toGGGammaG_effect (P : Params Q F) (o : Words) (d : Diag Q F) :
    (toGGGammaG P o d).All (Effect P .toGGGammaG d) := by
  unfold toGGGammaG
  refine Res.all_ite (fun _ => effect_skip) (fun c => ?_)
  have hc : Op.Can P .toGGGammaG d := by simp [Op.Can, Op.fromOrder, Op.needWorm, Op.fromMeasG, Op.fromGamma]; simp at c; tauto
  unfold toGGGammaGCore
  peel hc

theorem fromGGGammaG_effect (P : Params Q F) (o : Words) (d : Diag Q F) :
    (fromGGGammaG P o d).All (Effect P .fromGGGammaG d) := by
  unfold fromGGGammaG
  refine Res.all_ite (fun _ => effect_skip) (fun c => ?_)
  have hc : Op.Can P .fromGGGammaG d := by simp [Op.Can, Op.fromOrder, Op.needWorm, Op.fromMeasG, Op.fromGamma]; simp at c; tauto
  unfold fromGGGammaGCore
  peel hc

theorem toWWGammaW_effect (P : Params Q F) (o : Words) (d : Diag Q F) :
    (toWWGammaW P o d).All (Effect P .toWWGammaW d) := by
  unfold toWWGammaW
  refine Res.all_ite (fun _ => effect_skip) (fun c => ?_)
  have hc : Op.Can P .toWWGammaW d := by simp [Op.Can, Op.fromOrder, Op.needWorm, Op.fromMeasG, Op.fromGamma]; simp at c; tauto
  unfold toWWGammaWCore
  peel hc

theorem fromWWGammaW_effect (P : Params Q F) (o : Words) (d : Diag Q F) :
    (fromWWGammaW P o d).All (Effect P .fromWWGammaW d) := by
  unfold fromWWGammaW
  refine Res.all_ite (fun _ => effect_skip) (fun c => ?_)
  have hc : Op.Can P .fromWWGammaW d := by simp [Op.Can, Op.fromOrder, Op.needWorm, Op.fromMeasG, Op.fromGamma]; simp at c; tauto
  unfold fromWWGammaWCore
  peel hc

theorem foldl_loopAssign_same (newR : Site) (l : List (ℕ × F × F)) (d : Diag Q F) :
    (l.foldl (loopAssign newR) d).order = d.order ∧ (l.foldl (loopAssign newR) d).worm = d.worm ∧
    (l.foldl (loopAssign newR) d).measG = d.measG ∧ (l.foldl (loopAssign newR) d).hasGamma = d.hasGamma := by
  induction l generalizing d with
  | nil => exact ⟨rfl, rfl, rfl, rfl⟩
  | cons a as ih =>
    obtain ⟨h1, h2, h3, h4⟩ := ih (loopAssign newR d a)
    exact ⟨h1, h2, h3, h4⟩

theorem changeRLoop_effect (P : Params Q F) (o : Words) (d : Diag Q F) :
    (changeRLoop P o d).All (Effect P .changeRLoop d) := by
  unfold changeRLoop
  refine Res.all_ite (fun _ => effect_skip) (fun c => ?_)
  have hc : Op.Can P .changeRLoop d := by simp [Op.Can, Op.fromOrder, Op.needWorm, Op.fromMeasG, Op.fromGamma]; simp at c; tauto
  refine Res.all_ite (fun _ => Res.all_abort) (fun c2 => ?_)
  refine Res.all_bind fun v0 _ => ?_
  refine Res.all_bind fun _ _ => ?_
  refine Res.all_bind fun res _ => ?_
  cases res with
  | none => exact effect_skip
  | some p =>
    obtain ⟨vs, fw⟩ := p
    dsimp only
    unfold changeRLoopCore
    peel hc
    obtain ⟨h1, h2, h3, h4⟩ := foldl_loopAssign_same (Q := Q) (F := F) _ _ _
    exact effect_accept hc ⟨h1, by rw [h2]; rfl, h3, h4⟩

theorem runOp_effect (P : Params Q F) (op : Op) (o : Words) (d : Diag Q F) :
    (runOp P op o d).All (Effect P op d) := by
  cases op
  · exact createWorm_effect P o d
  · exact deleteWorm_effect P o d
  · exact moveWormG_effect P o d
  · exact moveWormW_effect P o d
  · exact reconnect_effect P o d
  · exact addInteraction_effect P o d
  · exact delInteraction_effect P o d
  · exact addDelta_effect P o d
  · exact delDelta_effect P o d
  · exact changeTau_effect P o d
  · exact effect_skip
  · exact changeRLoop_effect P o d
  · exact g2w_effect P o d
  · exact w2g_effect P o d
  · exact delta2cont_effect P o d
  · exact cont2delta_effect P o d
  · exact effect_skip
  · exact toOrder0_effect P o d
  · exact backToOrder1_effect P o d
  · exact toGGGammaG_effect P o d
  · exact fromGGGammaG_effect P o d
  · exact toWWGammaW_effect P o d
  · exact fromWWGammaW_effect P o d

end
end Feyn
