import Verif.Proof.RevTau

/-!
# Detailed balance: moving a fermion loop
-/

set_option linter.unusedSectionVars false
set_option linter.unusedSimpArgs false

namespace Feyn

section
variable {Q F : Type} [Field Q] [LinearOrder Q] [IsStrictOrderedRing Q] [Field F]
variable {P : Params Q F} {d d' d'' : Diag Q F}

theorem changeRLoop_bal (hP : P.Wf) (h : Inv P d) (h' : Inv P d') {v : ℕ} {r : Site} {u p : Q}
    (hm : (Move.changeRLoop v r : Move Q).Valid P d) (hu : 0 ≤ u)
    {out : Out Q F} (e : (Move.changeRLoop v r).run P d u = .ok out) (ha : out.tag = .accept)
    (hd : out.d = d') (hp : out.prob = p) : Bal P d (Move.changeRLoop v r) d' p := by
  obtain ⟨-, hv, hr⟩ := hm
  by_cases c1 : d.order = 0 ∨ d.worm.exist = true
  · simp only [Move.run] at e
    rw [if_pos c1] at e; exact absurd ha (fun q => skip_not_accept e q)
  rcases rloop_run hP h c1 hv r with ⟨-, q⟩ | ⟨vs, fw, hw, er⟩
  · rw [q] at e; exact absurd ha (fun q => skip_not_accept e q)
  rw [er] at e
  have hd' := (metropolis_accept e ha).2.1
  rw [hd] at hd'
  subst hd'
  have hvm : v ∈ vs := (hw.orbit v).2 ⟨0, rfl⟩
  have hr' : ∀ x ∈ vs, (movedDiag P d vs r (movedRatio P d vs r)).co.r x = r := by
    intro x hx
    show (if x ∈ vs then r else _) = r
    rw [if_pos hx]
  have hrv := hr' v hvm
  rcases rloop_run hP h' c1 hv (d.co.r v) with ⟨⟨k, hk⟩, -⟩ | ⟨vs', fw', hw', er'⟩
  · exact absurd ((hr' _ ((hw.orbit _).2 ⟨k, rfl⟩)).trans hrv.symm) hk
  have hvs : ∀ x, x ∈ vs' ↔ x ∈ vs := fun x => (hw'.orbit x).trans (hw.orbit x).symm
  rw [hrv] at er'
  have hco : movedCo (movedDiag P d vs r (movedRatio P d vs r)) vs' (d.co.r v) = d.co := by
    show ({ d.co with r := fun x => if x ∈ vs' then d.co.r v else if x ∈ vs then r else d.co.r x } : Coord Q) = d.co
    have : (fun x => if x ∈ vs' then d.co.r v else if x ∈ vs then r else d.co.r x) = d.co.r := by
      funext x
      by_cases q : x ∈ vs
      · rw [if_pos ((hvs x).2 q), hw.site x q]
      · rw [if_neg (fun z => q ((hvs x).1 z)), if_neg q]
    rw [this]
  have hcells : SameCells d (movedDiag P (movedDiag P d vs r (movedRatio P d vs r)) vs' (d.co.r v)
      (movedRatio P (movedDiag P d vs r (movedRatio P d vs r)) vs' (d.co.r v))) := by
    constructor <;> first
      | (intros; rfl)
      | skip
    · intro _ x _
      exact congrFun (congrArg Coord.r hco) x
  have hR' : movedRatio P (movedDiag P d vs r (movedRatio P d vs r)) vs' (d.co.r v) ≠ 0 := by
    generalize movedRatio P d vs r = ρ at *
    unfold movedRatio
    rw [hco]
    have hg : ∀ g ∈ (vs'.map fun v => d.sh.vG v OUT).toFinset, g ∈ d.G.live := by
      intro g hg
      simp only [List.mem_toFinset, List.mem_map] at hg
      obtain ⟨x, hx, rfl⟩ := hg
      exact h.topo.vG_mem _ (hw'.mem x hx) OUT
    have hw : ∀ w ∈ (vs'.map d.sh.vW).toFinset, w ∈ d.W.live := by
      intro g hg
      simp only [List.mem_toFinset, List.mem_map] at hg
      obtain ⟨x, hx, rfl⟩ := hg
      exact h.topo.vW_mem _ (hw'.mem x hx)
    refine div_ne_zero (mul_ne_zero ?_ ?_) (mul_ne_zero ?_ ?_) <;> rw [Finset.prod_ne_zero_iff]
    · intro g q
      have := h.line.g_ne g (hg g q)
      rw [h.line.g_eq g (hg g q)] at this
      exact this
    · intro w q
      have := h.line.w_ne w (hw w q)
      rw [h.line.w_eq w (hw w q)] at this
      exact this
    · exact fun g q => h'.line.g_ne g (hg g q)
    · exact fun w q => h'.line.w_ne w (hw w q)
  have hx := hP.lx_pos
  have hy := hP.ly_pos
  have hs := hP.nsub_pos
  have hS : (0 : Q) < ((P.lx * P.ly : ℕ) : Q) * (P.nsub : Q) := by
    have : 0 < P.lx * P.ly := Nat.mul_pos hx hy
    exact mul_pos (by exact_mod_cast this) (by exact_mod_cast hs)
  have hone : ∀ a b : Site, probSite P a / probSite P b = 1 := by
    intro a b
    unfold probSite
    exact div_self (by positivity)
  rw [hone] at e
  simp only [hone] at er'
  refine bal_core hP h h' hu e ha hd hp rfl one_pos (one_mul 1) ⟨idx_lt P (op := .changeRLoop) (by decide), hv,
    (h.dom v hv).1⟩ ?_ er' rfl hR' hcells.parts ?_
  · show Move.changeRLoop v ((movedDiag P d vs r (movedRatio P d vs r)).co.r v) = _
    rw [hrv]
  · rw [one_mul]; rfl

end
end Feyn
