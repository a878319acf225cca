import Verif.Proof.Effect
import Verif.Proof.Reach
import Verif.Spec.Extra

/-! Preservation of `DeltaTau`, `SpinWOk` and `WormSpinOk` by accepted updates. -/

namespace Feyn

set_option linter.unusedSectionVars false
set_option linter.unusedSimpArgs false

section
variable {Q F : Type} [Field Q] [LinearOrder Q] [Field F]

/-- If the call accepts then the new diagram satisfies `p`. -/
def Acc (p : Diag Q F → Prop) (out : Out Q F) : Prop := out.tag = .accept → p out.d

theorem acc_skip {p : Diag Q F → Prop} {d : Diag Q F} : (skip d).All (Acc p) := all_skip fun h => by cases h
theorem acc_reject {p : Diag Q F → Prop} {d : Diag Q F} {prob : Q} : Acc p ⟨.reject, prob, d⟩ := fun h => by cases h
theorem acc_accept {p : Diag Q F → Prop} {d' : Diag Q F} {prob : Q} (h : p d') :
    (Res.ok d').All fun d' => Acc p ⟨.accept, prob, d'⟩ := Res.all_ok fun _ => h

attribute [local irreducible] metropolis

/-- Reduce a call to its accepting branch. -/
macro "peelA" : tactic => `(tactic|
  repeat' first
    | exact Res.all_ub
    | exact Res.all_abort
    | exact acc_skip
    | exact acc_reject
    | (refine all_metropolis ?_ ?_)
    | (refine acc_accept ?_)
    | (refine Res.all_bind fun _ _ => ?_)
    | (refine Res.all_ite (fun _ => ?_) (fun _ => ?_)))

/-- Fields on which the spin properties depend. -/
def SameSpins (d d' : Diag Q F) : Prop :=
  d'.W = d.W ∧ d'.sh.wV = d.sh.wV ∧ d'.sh.vW = d.sh.vW ∧ d'.co.spin = d.co.spin ∧ d'.worm.exist = d.worm.exist ∧
  d'.worm.ira = d.worm.ira ∧ d'.worm.masha = d.worm.masha ∧ d'.worm.dSpin = d.worm.dSpin

theorem SameSpins.keep {d d' : Diag Q F} (h : SameSpins d d') (hd : SpinWOk d) : SpinWOk d' := by
  obtain ⟨h1, h2, h3, h4, h5, h6, h7, h8⟩ := h
  unfold SpinWOk
  rw [h1, h2, h3, h4, h5, h6, h7, h8]
  exact hd

theorem SameSpins.keepWorm {d d' : Diag Q F} (h : SameSpins d d') (hd : WormSpinOk d) : WormSpinOk d' := by
  obtain ⟨h1, h2, h3, h4, h5, h6, h7, h8⟩ := h
  unfold WormSpinOk
  rw [h2, h3, h4, h5, h6, h7, h8]
  exact hd

/-- Fields on which `DeltaTau` depends. -/
def SameTimes (d d' : Diag Q F) : Prop :=
  d'.W = d.W ∧ d'.sh.wV = d.sh.wV ∧ d'.co.tau = d.co.tau ∧ d'.fl.wDelta = d.fl.wDelta

theorem SameTimes.keep {d d' : Diag Q F} (h : SameTimes d d') (hd : DeltaTau d) : DeltaTau d' := by
  obtain ⟨h1, h2, h3, h4⟩ := h
  intro w hw hf
  rw [h1] at hw
  rw [h4] at hf
  rw [h2, h3]
  exact hd w hw hf

theorem createWorm_times (P : Params Q F) (o : Words) (d : Diag Q F) :
    (createWorm P o d).All (Acc (SameTimes d)) := by
  unfold createWorm createWormCore
  peelA
  exact ⟨rfl, rfl, rfl, rfl⟩

theorem deleteWorm_times (P : Params Q F) (o : Words) (d : Diag Q F) :
    (deleteWorm P o d).All (Acc (SameTimes d)) := by
  unfold deleteWorm deleteWormCore
  peelA
  exact ⟨rfl, rfl, rfl, rfl⟩

theorem moveWormG_times (P : Params Q F) (o : Words) (d : Diag Q F) :
    (moveWormG P o d).All (Acc (SameTimes d)) := by
  unfold moveWormG moveWormGCore
  peelA
  exact ⟨rfl, rfl, rfl, rfl⟩

theorem moveWormW_times (P : Params Q F) (o : Words) (d : Diag Q F) :
    (moveWormW P o d).All (Acc (SameTimes d)) := by
  unfold moveWormW moveWormWCore
  peelA
  exact ⟨rfl, rfl, rfl, rfl⟩

theorem reconnect_times (P : Params Q F) (o : Words) (d : Diag Q F) :
    (reconnect P o d).All (Acc (SameTimes d)) := by
  unfold reconnect reconnectCore
  peelA
  exact ⟨rfl, rfl, rfl, rfl⟩

theorem g2w_times (P : Params Q F) (o : Words) (d : Diag Q F) :
    (g2w P o d).All (Acc (SameTimes d)) := by
  unfold g2w g2wCore
  peelA
  exact ⟨rfl, rfl, rfl, rfl⟩

theorem w2g_times (P : Params Q F) (o : Words) (d : Diag Q F) :
    (w2g P o d).All (Acc (SameTimes d)) := by
  unfold w2g w2gCore
  peelA
  exact ⟨rfl, rfl, rfl, rfl⟩

theorem toOrder0_times (P : Params Q F) (o : Words) (d : Diag Q F) :
    (toOrder0 P o d).All (Acc (SameTimes d)) := by
  unfold toOrder0 toOrder0Core
  peelA
  exact ⟨rfl, rfl, rfl, rfl⟩

theorem toGGGammaG_times (P : Params Q F) (o : Words) (d : Diag Q F) :
    (toGGGammaG P o d).All (Acc (SameTimes d)) := by
  unfold toGGGammaG toGGGammaGCore
  peelA
  exact ⟨rfl, rfl, rfl, rfl⟩

theorem fromGGGammaG_times (P : Params Q F) (o : Words) (d : Diag Q F) :
    (fromGGGammaG P o d).All (Acc (SameTimes d)) := by
  unfold fromGGGammaG fromGGGammaGCore
  peelA
  exact ⟨rfl, rfl, rfl, rfl⟩

theorem toWWGammaW_times (P : Params Q F) (o : Words) (d : Diag Q F) :
    (toWWGammaW P o d).All (Acc (SameTimes d)) := by
  unfold toWWGammaW toWWGammaWCore
  peelA
  exact ⟨rfl, rfl, rfl, rfl⟩

theorem fromWWGammaW_times (P : Params Q F) (o : Words) (d : Diag Q F) :
    (fromWWGammaW P o d).All (Acc (SameTimes d)) := by
  unfold fromWWGammaW fromWWGammaWCore
  peelA
  exact ⟨rfl, rfl, rfl, rfl⟩

theorem reconnect_spins (P : Params Q F) (o : Words) (d : Diag Q F) :
    (reconnect P o d).All (Acc (SameSpins d)) := by
  unfold reconnect reconnectCore
  peelA
  all_goals exact ⟨rfl, rfl, rfl, rfl, rfl, rfl, rfl, rfl⟩

theorem changeTau_spins (P : Params Q F) (o : Words) (d : Diag Q F) :
    (changeTau P o d).All (Acc (SameSpins d)) := by
  unfold changeTau changeTauCore
  peelA
  all_goals exact ⟨rfl, rfl, rfl, rfl, rfl, rfl, rfl, rfl⟩

theorem g2w_spins (P : Params Q F) (o : Words) (d : Diag Q F) :
    (g2w P o d).All (Acc (SameSpins d)) := by
  unfold g2w g2wCore
  peelA
  all_goals exact ⟨rfl, rfl, rfl, rfl, rfl, rfl, rfl, rfl⟩

theorem w2g_spins (P : Params Q F) (o : Words) (d : Diag Q F) :
    (w2g P o d).All (Acc (SameSpins d)) := by
  unfold w2g w2gCore
  peelA
  all_goals exact ⟨rfl, rfl, rfl, rfl, rfl, rfl, rfl, rfl⟩

theorem delta2cont_spins (P : Params Q F) (o : Words) (d : Diag Q F) :
    (delta2cont P o d).All (Acc (SameSpins d)) := by
  unfold delta2cont delta2contCore deltaCore
  peelA
  all_goals exact ⟨rfl, rfl, rfl, rfl, rfl, rfl, rfl, rfl⟩

theorem cont2delta_spins (P : Params Q F) (o : Words) (d : Diag Q F) :
    (cont2delta P o d).All (Acc (SameSpins d)) := by
  unfold cont2delta cont2deltaCore deltaCore
  peelA
  all_goals exact ⟨rfl, rfl, rfl, rfl, rfl, rfl, rfl, rfl⟩

theorem toOrder0_spins (P : Params Q F) (o : Words) (d : Diag Q F) :
    (toOrder0 P o d).All (Acc (SameSpins d)) := by
  unfold toOrder0 toOrder0Core
  peelA
  all_goals exact ⟨rfl, rfl, rfl, rfl, rfl, rfl, rfl, rfl⟩

theorem toGGGammaG_spins (P : Params Q F) (o : Words) (d : Diag Q F) :
    (toGGGammaG P o d).All (Acc (SameSpins d)) := by
  unfold toGGGammaG toGGGammaGCore
  peelA
  all_goals exact ⟨rfl, rfl, rfl, rfl, rfl, rfl, rfl, rfl⟩

theorem fromGGGammaG_spins (P : Params Q F) (o : Words) (d : Diag Q F) :
    (fromGGGammaG P o d).All (Acc (SameSpins d)) := by
  unfold fromGGGammaG fromGGGammaGCore
  peelA
  all_goals exact ⟨rfl, rfl, rfl, rfl, rfl, rfl, rfl, rfl⟩

theorem toWWGammaW_spins (P : Params Q F) (o : Words) (d : Diag Q F) :
    (toWWGammaW P o d).All (Acc (SameSpins d)) := by
  unfold toWWGammaW toWWGammaWCore
  peelA
  all_goals exact ⟨rfl, rfl, rfl, rfl, rfl, rfl, rfl, rfl⟩

theorem fromWWGammaW_spins (P : Params Q F) (o : Words) (d : Diag Q F) :
    (fromWWGammaW P o d).All (Acc (SameSpins d)) := by
  unfold fromWWGammaW fromWWGammaWCore
  peelA
  all_goals exact ⟨rfl, rfl, rfl, rfl, rfl, rfl, rfl, rfl⟩

theorem foldl_loopAssign_keep (newR : Site) (l : List (ℕ × F × F)) (d : Diag Q F) :
    SameTimes d (l.foldl (loopAssign newR) d) ∧ SameSpins d (l.foldl (loopAssign newR) d) := by
  induction l generalizing d with
  | nil => exact ⟨⟨rfl, rfl, rfl, rfl⟩, rfl, rfl, rfl, rfl, rfl, rfl, rfl, rfl⟩
  | cons a as ih =>
    obtain ⟨⟨h1, h2, h3, h4⟩, k1, k2, k3, k4, k5, k6, k7, k8⟩ := ih (loopAssign newR d a)
    exact ⟨⟨h1, h2, h3, h4⟩, k1, k2, k3, k4, k5, k6, k7, k8⟩

theorem changeRLoop_keep (P : Params Q F) (o : Words) (d : Diag Q F) :
    (changeRLoop P o d).All (Acc fun d' => SameTimes d d' ∧ SameSpins d d') := by
  unfold changeRLoop
  refine Res.all_ite (fun _ => acc_skip) (fun c => ?_)
  refine Res.all_ite (fun _ => Res.all_abort) (fun c2 => ?_)
  refine Res.all_bind fun v0 _ => ?_
  refine Res.all_bind fun _ _ => ?_
  refine Res.all_bind fun res _ => ?_
  cases res with
  | none => exact acc_skip
  | some p =>
    obtain ⟨vs, fw⟩ := p
    dsimp only
    unfold changeRLoopCore
    peelA
    obtain ⟨⟨h1, h2, h3, h4⟩, k1, k2, k3, k4, k5, k6, k7, k8⟩ := foldl_loopAssign_keep (Q := Q) (F := F) _ _ _
    exact ⟨⟨h1, h2, h3, h4⟩, k1, k2, k3, k4, k5, k6, k7, k8⟩

end

section
variable {Q F : Type} [Field Q] [LinearOrder Q] [IsStrictOrderedRing Q] [Field F]
variable {P : Params Q F} {d : Diag Q F}

attribute [local irreducible] metropolis

theorem pickVer_mem (h : Inv P d) {w : Word} {v : ℕ} (e : d.Ver.pick w = .ok v) : v ∈ d.Ver.live := by
  obtain ⟨p, e', hp⟩ := h.pickVer w
  rw [e] at e'; cases e'; exact hp

theorem pickW_mem (h : Inv P d) {w : Word} {v : ℕ} (e : d.W.pick w = .ok v) : v ∈ d.W.live := by
  obtain ⟨p, e', hp⟩ := h.pickW w
  rw [e] at e'; cases e'; exact hp

/-- Changing the time of one vertex. -/
theorem updTau_delta (h : Inv P d) {v : ℕ} (t : Q) {w : ℕ} (hw : w ∈ d.W.live)
    (hn : w ≠ d.sh.vW v) (hd : d.co.tau (d.sh.wV w IN) = d.co.tau (d.sh.wV w OUT)) :
    upd d.co.tau v t (d.sh.wV w IN) = upd d.co.tau v t (d.sh.wV w OUT) := by
  have hne : ∀ e, d.sh.wV w e ≠ v := fun e q => hn (by rw [← q, h.topo.vW_wV w hw])
  rw [upd_ne _ _ (hne IN), upd_ne _ _ (hne OUT), hd]

theorem changeTau_times (h : Inv P d) (hd : DeltaTau d) (o : Words) : (changeTau P o d).All (Acc DeltaTau) := by
  unfold changeTau
  refine Res.all_ite (fun _ => acc_skip) (fun c => ?_)
  refine Res.all_bind fun v ev => ?_
  have hv := pickVer_mem h ev
  unfold changeTauCore
  refine Res.all_bind fun _ _ => ?_
  refine Res.all_bind fun _ _ => ?_
  refine Res.all_ite (fun _ => acc_skip) (fun c => ?_)
  peelA
  all_goals
    intro w hw hf
    exact updTau_delta h _ hw (fun q => c (q ▸ hf)) (hd w hw hf)

theorem delta2cont_times (h : Inv P d) (hd : DeltaTau d) (o : Words) : (delta2cont P o d).All (Acc DeltaTau) := by
  unfold delta2cont
  refine Res.all_ite (fun _ => acc_skip) (fun c => ?_)
  refine Res.all_bind fun x ex => ?_
  have hx := pickW_mem h ex
  unfold delta2contCore deltaCore
  peelA
  all_goals
    intro w hw hf
    have hwx : w ≠ x := fun q => by rw [q] at hf; simp at hf
    have hf' : d.fl.wDelta w = true := by
      have : upd d.fl.wDelta x false w = true := hf
      rwa [upd_ne _ _ hwx] at this
    exact updTau_delta h _ hw (by rw [h.topo.vW_wV x hx]; exact hwx) (hd w hw hf')

theorem cont2delta_times (h : Inv P d) (hd : DeltaTau d) (o : Words) : (cont2delta P o d).All (Acc DeltaTau) := by
  unfold cont2delta
  refine Res.all_ite (fun _ => acc_skip) (fun c => ?_)
  refine Res.all_bind fun x ex => ?_
  have hx := pickW_mem h ex
  unfold cont2deltaCore deltaCore
  peelA
  all_goals
    intro w hw hf
    by_cases hwx : w = x
    · subst hwx
      have hne : d.sh.wV w IN ≠ d.sh.wV w OUT := fun q => by
        have h1 := h.topo.vDir_wV w hx IN
        rw [q, h.topo.vDir_wV w hx OUT] at h1
        cases h1
      show upd d.co.tau _ _ (d.sh.wV w IN) = upd d.co.tau _ _ (d.sh.wV w OUT)
      rw [upd_ne _ _ hne, upd_same]
    · have hf' : d.fl.wDelta w = true := by
        have : upd d.fl.wDelta x true w = true := hf
        rwa [upd_ne _ _ hwx] at this
      exact updTau_delta h _ hw (by rw [h.topo.vW_wV x hx]; exact hwx) (hd w hw hf')

/-- What the three containers return when a line is added. -/
theorem add_live {b b' : Bundle} (hb : b.Wf) {p : ℕ} (e : b.add = .ok (p, b')) (hlt : b.avail < MAX_BUNDLE) :
    b'.Wf ∧ p ∉ b.live ∧ b'.live = insert p b.live ∧ b'.avail = b.avail + 1 := by
  obtain ⟨q, c, e', h1, -, h2, h3, h4, -⟩ := Bundle.add_spec hb hlt
  rw [e] at e'; cases e'
  exact ⟨h1, h2, h3, h4⟩

theorem remove_live {b b' : Bundle} (hb : b.Wf) {p : ℕ} (hp : p ∈ b.live) (e : b.remove p = .ok b') :
    b'.Wf ∧ b'.live = b.live.erase p ∧ b'.avail = b.avail - 1 := by
  obtain ⟨c, e', h1, h2, h3⟩ := Bundle.remove_spec hb hp
  rw [e] at e'; cases e'
  exact ⟨h1, h2, h3⟩

theorem SpinWF.insert {W W' : Finset ℕ} {wV : ℕ → Dir → ℕ} {vW : ℕ → ℕ} {spin : ℕ → Dir → Spin} {ex : Bool}
    {ira masha : ℕ} {ds : ℤ} (h : SpinWF W wV vW spin ex ira masha ds) {w vA vB : ℕ} {dirW : Dir} {sA sB : Spin}
    (hW : W' = insert w W) (hw : w ∉ W) (hAB : vA ≠ vB) (hv : ∀ x ∈ W, ∀ e, wV x e ≠ vA ∧ wV x e ≠ vB)
    (hi : ira ≠ vA ∧ ira ≠ vB ∧ vW ira ∈ W) (hm : masha ≠ vA ∧ masha ≠ vB ∧ vW masha ∈ W) :
    SpinWF W' (upd2 (upd2 wV w dirW vA) w (!dirW) vB) (upd (upd vW vA w) vB w)
      (upd (upd spin vA fun _ => sA) vB fun _ => sB) ex ira masha ds := by
  intro x hx
  rw [hW, Finset.mem_insert] at hx
  rw [upd_ne _ _ hi.2.1, upd_ne _ _ hi.1, upd_ne _ _ hm.2.1, upd_ne _ _ hm.1]
  rcases hx with rfl | hx
  · have n1 : ¬ (ex = true ∧ vW masha = x) := fun q => hw (q.2 ▸ hm.2.2)
    have n2 : ¬ (ex = true ∧ vW ira = x) := fun q => hw (q.2 ▸ hi.2.2)
    rw [if_neg n1, if_neg n2]
    cases dirW <;> simp [upd2_apply, upd_apply, hAB, hAB.symm, excess]
  · have hne : x ≠ w := fun q => hw (q ▸ hx)
    have := h x hx
    simp only [excess, upd2_ne _ _ _ _ hne, upd_ne _ _ (hv x hx _).1, upd_ne _ _ (hv x hx _).2]
    exact this

theorem WormSpinF.insert {wV : ℕ → Dir → ℕ} {vW : ℕ → ℕ} {spin : ℕ → Dir → Spin} {ex : Bool}
    {ira masha : ℕ} {ds : ℤ} (h : WormSpinF wV vW spin ex ira masha ds) {w vA vB : ℕ} {dirW : Dir} {sA sB : Spin}
    (hw : vW masha ≠ w) (hv : wV (vW masha) IN ≠ vA ∧ wV (vW masha) IN ≠ vB)
    (hm : masha ≠ vA ∧ masha ≠ vB) :
    WormSpinF (upd2 (upd2 wV w dirW vA) w (!dirW) vB) (upd (upd vW vA w) vB w)
      (upd (upd spin vA fun _ => sA) vB fun _ => sB) ex ira masha ds := by
  unfold WormSpinF
  rw [upd_ne _ _ hm.2, upd_ne _ _ hm.1]
  simp only [excess, upd2_ne _ _ _ _ hw, upd_ne _ _ hv.1, upd_ne _ _ hv.2]
  exact h

theorem addCore_extra (hP : P.Wf) (h : Inv P d) (ho : d.order ≠ 0) (hm : d.order < P.maxOrd)
    (he : d.worm.exist = true) {isDelta : Bool} {kW : ℤ} {dir dirW : Dir}
    {tauA tauB u : Q} (ht : isDelta = true → tauA = tauB) :
    (addCore P d isDelta kW dir dirW tauA tauB u).All (Acc fun d' =>
      (DeltaTau d → DeltaTau d') ∧ (SpinWOk d → SpinWOk d') ∧ (SpinWOk d → WormSpinOk d → WormSpinOk d')) := by
  have hN : d.order = d.W.avail := by have := h.count.order; omega
  have hM := hP.lt_max
  unfold addCore
  peelA
  rename_i x1 hA x2 hB x3 _ x4 _ x5 hW _ _ _ _ _ _
  obtain ⟨vA, ver1⟩ := x1
  obtain ⟨vB, ver2⟩ := x2
  obtain ⟨gA, g1⟩ := x3
  obtain ⟨gB, g2⟩ := x4
  obtain ⟨w, w1⟩ := x5
  dsimp only at hA hB hW ⊢
  have hv := h.count.ver
  obtain ⟨a1, a2, a3, a4⟩ := add_live h.count.verWf hA (by omega)
  obtain ⟨b1, b2, b3, b4⟩ := add_live a1 hB (by omega)
  obtain ⟨c1, c2, c3, c4⟩ := add_live h.count.wWf hW (by omega)
  have hAB : vB ≠ vA := fun q => b2 (by rw [a3, q]; exact Finset.mem_insert_self _ _)
  have hBV : vB ∉ d.Ver.live := fun q => b2 (by rw [a3]; exact Finset.mem_insert_of_mem q)
  have old : ∀ x ∈ d.W.live, ∀ e, d.sh.wV x e ≠ vA ∧ d.sh.wV x e ≠ vB := fun x hx e =>
    ⟨fun q => a2 (q ▸ h.topo.wV_mem x hx e), fun q => hBV (q ▸ h.topo.wV_mem x hx e)⟩
  have iA : d.worm.ira ≠ vA := fun q => a2 (q ▸ h.worm.ira_mem he)
  have iB : d.worm.ira ≠ vB := fun q => hBV (q ▸ h.worm.ira_mem he)
  have mA : d.worm.masha ≠ vA := fun q => a2 (q ▸ h.worm.masha_mem he)
  have mB : d.worm.masha ≠ vB := fun q => hBV (q ▸ h.worm.masha_mem he)
  have wne : ∀ x ∈ d.W.live, x ≠ w := fun x hx q => c2 (q ▸ hx)
  have e1 : d.sh.vW d.worm.ira ∈ d.W.live := h.topo.vW_mem _ (h.worm.ira_mem he)
  have e2 : d.sh.vW d.worm.masha ∈ d.W.live := h.topo.vW_mem _ (h.worm.masha_mem he)
  refine ⟨fun hd => ?_, fun hd => ?_, fun _ hd => ?_⟩
  · intro x hx hf
    dsimp only at hx hf ⊢
    rw [c3, Finset.mem_insert] at hx
    rcases hx with rfl | hx
    · rw [upd_same] at hf
      have := ht hf
      cases dirW <;> simp [upd2_apply, upd_apply, hAB, hAB.symm, this]
    · have hne := wne x hx
      rw [upd_ne _ _ hne] at hf
      have := hd x hx hf
      simp only [upd2_ne _ _ _ _ hne, upd_ne _ _ (old x hx _).1, upd_ne _ _ (old x hx _).2]
      exact this
  · exact SpinWF.insert hd c3 c2 hAB.symm old ⟨iA, iB, e1⟩ ⟨mA, mB, e2⟩
  · exact WormSpinF.insert hd (wne _ e2) (old _ e2 _) ⟨mA, mB⟩

/-- The three additional properties. -/
def Ext3 (d d' : Diag Q F) : Prop :=
  (DeltaTau d → DeltaTau d') ∧ (SpinWOk d → SpinWOk d') ∧ (SpinWOk d → WormSpinOk d → WormSpinOk d')

theorem SameSpins.ext3 {d' : Diag Q F} (h : SameSpins d d') (ht : DeltaTau d → DeltaTau d') : Ext3 d d' :=
  ⟨ht, h.keep, fun _ => h.keepWorm⟩

theorem delCore_extra (h : Inv P d) (he : d.worm.exist = true) {isDelta : Bool} {dir : Dir} {u : Q} :
    (delCore P d isDelta dir u).All (Acc (Ext3 d)) := by
  unfold delCore
  peelA
  rename_i x hW
  have m1 : d.sh.vG d.worm.ira dir ∈ d.G.live := h.topo.vG_mem _ (h.worm.ira_mem he) _
  have m2 := h.topo.vW_mem _ (h.topo.gV_mem _ m1 dir)
  obtain ⟨-, r2, -⟩ := remove_live h.count.wWf m2 hW
  have sub : ∀ w, w ∈ x.live → w ∈ d.W.live := fun w hw => by
    rw [r2] at hw; exact Finset.mem_of_mem_erase hw
  exact ⟨fun hd w hw => hd w (sub w hw), fun hd w hw => hd w (sub w hw), fun _ hd => hd⟩

theorem canNotMove_iff {ds : ℤ} (hds : ds = 1 ∨ ds = -1) (spin : ℕ → Dir → Spin) (v : ℕ) :
    canNotMove ds (spin v IN) (spin v OUT) = true ↔ excess spin v = ds := by
  unfold canNotMove excess spinVal
  rcases hds with rfl | rfl <;> cases spin v false <;> cases spin v true <;> decide

theorem createWormCore_extra (h : Inv P d) (hne : d.worm.exist = false) {w : ℕ} (hw : w ∈ d.W.live) {k ds : ℤ}
    (hs : ds = 1 ∨ ds = -1) {u : Q} : (createWormCore P d w k ds u).All (Acc (Ext3 d)) := by
  unfold createWormCore
  peelA
  have cm := ‹¬ (canNotMove ds (d.co.spin (d.sh.wV w IN) IN) (d.co.spin (d.sh.wV w IN) OUT) &&
      canNotMove (-ds) (d.co.spin (d.sh.wV w OUT) IN) (d.co.spin (d.sh.wV w OUT) OUT)) = true›
  refine ⟨fun hd => hd, fun hd => ?_, fun hd _ => ?_⟩
  · intro x hx
    have h1 : excess d.co.spin (d.sh.wV x IN) + excess d.co.spin (d.sh.wV x OUT) = 0 := by
      rw [hd x hx, hne]; simp
    have h2 := h.topo.vW_wV w hw
    show excess d.co.spin (d.sh.wV x IN) + excess d.co.spin (d.sh.wV x OUT) =
      (if true = true ∧ d.sh.vW (d.sh.wV w OUT) = x then ds else 0) -
      (if true = true ∧ d.sh.vW (d.sh.wV w IN) = x then ds else 0)
    rw [h1, h2, h2]
    simp
  · intro _
    have h1 : excess d.co.spin (d.sh.wV w IN) + excess d.co.spin (d.sh.wV w OUT) = 0 := by
      rw [hd w hw, hne]; simp
    have h2 := h.topo.vW_wV w hw
    show excess d.co.spin (d.sh.wV (d.sh.vW (d.sh.wV w OUT)) IN) -
      (if d.sh.wV w IN = d.sh.wV (d.sh.vW (d.sh.wV w OUT)) IN then 0 else ds) ≠ ds
    rw [h2, if_pos rfl]
    intro q
    refine cm ?_
    rw [Bool.and_eq_true, canNotMove_iff hs, canNotMove_iff (by omega)]
    omega

theorem deleteWormCore_extra {u : Q} :
    (deleteWormCore P d u).All (Acc (Ext3 d)) := by
  unfold deleteWormCore
  peelA
  have cm := ‹¬ d.sh.vW d.worm.ira ≠ d.sh.vW d.worm.masha›
  refine ⟨fun hd => hd, fun hd => ?_, fun _ _ q => by cases q⟩
  intro x hx
  have h1 := hd x hx
  show excess d.co.spin (d.sh.wV x IN) + excess d.co.spin (d.sh.wV x OUT) =
      (if false = true ∧ d.sh.vW d.worm.masha = x then d.worm.dSpin else 0) -
      (if false = true ∧ d.sh.vW d.worm.ira = x then d.worm.dSpin else 0)
  rw [h1, not_not.mp cm]
  simp

theorem moveWormWCore_extra (h : Inv P d) (he : d.worm.exist = true) {u : Q} :
    (moveWormWCore P d u).All (Acc (Ext3 d)) := by
  unfold moveWormWCore
  peelA
  have cm := ‹¬ (d.sh.wV (d.sh.vW d.worm.ira) (!d.sh.vDir d.worm.ira) = d.worm.ira ∨
    d.sh.wV (d.sh.vW d.worm.ira) (!d.sh.vDir d.worm.ira) = d.worm.masha)›
  have hi := h.worm.ira_mem he
  have hm := h.worm.masha_mem he
  have hw := h.topo.vW_mem _ hi
  have hv := h.topo.vW_wV _ hw (!d.sh.vDir d.worm.ira)
  refine ⟨fun hd => hd, fun hd => ?_, fun _ hd => ?_⟩
  · intro x hx
    have h1 := hd x hx
    rw [← hv] at h1
    exact h1
  · intro _
    have h1 := hd he
    have hmw : d.sh.vW d.worm.masha ≠ d.sh.vW d.worm.ira := by
      intro q
      have q1 := h.topo.wV_vW _ hm
      rw [h.worm.masha_dir he] at q1
      by_cases c : d.sh.vDir d.worm.ira = OUT
      · have q2 := h.topo.wV_vW _ hi
        rw [c, ← q, q1] at q2
        exact h.worm.ne he q2.symm
      · have c' : d.sh.vDir d.worm.ira = IN := by simpa using c
        rw [c', ← q] at cm
        exact cm (Or.inr q1)
    have n1 : d.worm.ira ≠ d.sh.wV (d.sh.vW d.worm.masha) IN := fun q => hmw (by
      rw [q, h.topo.vW_wV _ (h.topo.vW_mem _ hm)])
    have n2 : d.sh.wV (d.sh.vW d.worm.ira) (!d.sh.vDir d.worm.ira) ≠ d.sh.wV (d.sh.vW d.worm.masha) IN :=
      fun q => hmw (by rw [← hv, q, h.topo.vW_wV _ (h.topo.vW_mem _ hm)])
    rw [if_neg n1] at h1
    show excess d.co.spin (d.sh.wV (d.sh.vW d.worm.masha) IN) -
      (if d.sh.wV (d.sh.vW d.worm.ira) (!d.sh.vDir d.worm.ira) = d.sh.wV (d.sh.vW d.worm.masha) IN then 0
        else d.worm.dSpin) ≠ d.worm.dSpin
    rw [if_neg n2]
    exact h1

/-- Spin emitted at the old and the new end when the worm moves along a fermion line. -/
theorem moveG_excess {ds : ℤ} (hs : ds = 1 ∨ ds = -1) {dir : Dir} {sg : Spin}
    (hc : canNotMoveG ds sg dir = false) {spin : ℕ → Dir → Spin} {a b : ℕ} (hab : b ≠ a)
    (ha : spin a dir = sg) (hb : spin b (!dir) = sg) :
    let spin' := upd (upd spin a fun e => if e = dir then !spin a e else spin a e) b
      fun e => if e = !dir then !spin b e else spin b e
    ∀ v, excess spin' v = excess spin v + (if v = a then ds else 0) - (if v = b then ds else 0) := by
  intro spin' v
  by_cases h1 : v = a
  · subst h1
    rw [if_pos rfl, if_neg hab.symm]
    simp only [excess, spin', upd_ne _ _ hab.symm, upd_same]
    unfold canNotMoveG at hc
    subst ha
    rcases hs with rfl | rfl <;> cases dir <;> revert hc <;> cases spin v false <;> cases spin v true <;>
      simp [spinVal]
  by_cases h2 : v = b
  · subst h2
    rw [if_pos rfl, if_neg h1]
    simp only [excess, spin', upd_same]
    unfold canNotMoveG at hc
    clear ha
    subst hb
    rcases hs with rfl | rfl <;> cases dir <;> simp only [Bool.not_false, Bool.not_true] at hc ⊢ <;> revert hc <;> cases spin v false <;> cases spin v true <;>
      simp [spinVal]
  rw [if_neg h1, if_neg h2]
  simp only [excess, spin', upd_ne _ _ h1, upd_ne _ _ h2]
  ring

/-- Exactly one end of the line of `a` is `a`. -/
theorem end_sum (h : Inv P d) {a : ℕ} (ha : a ∈ d.Ver.live) {x : ℕ} (hx : x ∈ d.W.live) (t : ℤ) :
    (if d.sh.wV x IN = a then t else 0) + (if d.sh.wV x OUT = a then t else 0) =
      if d.sh.vW a = x then t else 0 := by
  by_cases c : d.sh.vW a = x
  · have h1 := h.topo.wV_vW a ha
    have hne : d.sh.wV x IN ≠ d.sh.wV x OUT := fun q => by
      have h1 := h.topo.vDir_wV x hx IN
      rw [q, h.topo.vDir_wV x hx OUT] at h1
      cases h1
    rw [c] at h1
    rw [if_pos c]
    cases q : d.sh.vDir a
    · rw [q] at h1
      rw [if_pos h1, if_neg (fun q => hne (h1.trans q.symm)), add_zero]
    · rw [q] at h1
      rw [if_pos h1, if_neg (fun q => hne (q.trans h1.symm)), zero_add]
  · have hn : ∀ e, d.sh.wV x e ≠ a := fun e q => c (by rw [← q, h.topo.vW_wV x hx])
    rw [if_neg (hn _), if_neg (hn _), if_neg c, add_zero]

theorem moveWormGCore_extra (h : Inv P d) (he : d.worm.exist = true) {dir : Dir} {u : Q} :
    (moveWormGCore P d dir u).All (Acc (Ext3 d)) := by
  unfold moveWormGCore
  peelA
  have cm := ‹¬ (d.sh.gV (d.sh.vG d.worm.ira dir) dir = d.worm.ira ∨
    d.sh.gV (d.sh.vG d.worm.ira dir) dir = d.worm.masha ∨ _)›
  rw [not_or, not_or] at cm
  obtain ⟨cm1, cm2, cm3⟩ := cm
  have hi := h.worm.ira_mem he
  have hm := h.worm.masha_mem he
  have hg := h.topo.vG_mem _ hi dir
  have hv2 := h.topo.gV_mem _ hg dir
  have hsp := h.spin _ hg
  have hgi := h.topo.gV_vG _ hi dir
  have ex := moveG_excess (h.worm.dSpin he) (by simpa using cm3) (spin := d.co.spin) cm1
    (by cases dir
        · rw [hsp]; exact congrFun (congrArg _ hgi.symm) _
        · exact congrFun (congrArg _ hgi.symm) _)
    (by cases dir
        · rfl
        · exact hsp.symm)
  refine ⟨fun hd => hd, fun hd => ?_, fun _ hd => ?_⟩
  · intro x hx
    have h1 := hd x hx
    have i1 := end_sum h hi hx d.worm.dSpin
    have i2 := end_sum h hv2 hx d.worm.dSpin
    refine (congrArg₂ (· + ·) (ex _) (ex _)).trans ?_
    dsimp only
    simp only [he, true_and] at h1 ⊢
    generalize d.sh.gV (d.sh.vG d.worm.ira dir) dir = v2 at *
    linarith
  · intro _
    have h1 := hd he
    show excess _ _ - (if d.sh.gV (d.sh.vG d.worm.ira dir) dir = d.sh.wV (d.sh.vW d.worm.masha) IN then 0
        else d.worm.dSpin) ≠ d.worm.dSpin
    refine fun q => h1 ((Eq.trans ?_ q))
    refine Eq.trans ?_ (congrArg (· - _) (ex _).symm)
    dsimp only
    generalize d.sh.gV (d.sh.vG d.worm.ira dir) dir = v2 at *
    generalize d.sh.wV (d.sh.vW d.worm.masha) IN = z at *
    by_cases c1 : z = d.worm.ira
    · subst c1
      simp [cm1, Ne.symm cm1]
    · by_cases c2 : z = v2
      · subst c2
        simp [cm1, Ne.symm cm1]
      · simp [c1, c2, Ne.symm c1, Ne.symm c2]

theorem backToOrder1Core_extra (h : Inv P d) (ho : d.order = 0) {r : Site} {t1 t2 : Q} {s1 s2 : Spin} {u : Q} :
    (backToOrder1Core P d r t1 t2 s1 s2 u).All (Acc fun d' =>
      ((∀ w ∈ d.W.live, d.fl.wDelta w = false) → DeltaTau d') ∧ SpinWOk d' ∧ WormSpinOk d') := by
  have hc := h.count.order
  have hpos := h.count.n_pos
  have ⟨_, hn, hw, hγ⟩ : d.order = 0 ∧ d.W.avail = 1 ∧ d.worm.exist = false ∧ d.hasGamma = 0 := by
    rcases hc with hc | hc
    · omega
    · exact hc
  obtain ⟨hv1, hv2, hne, hV, g1, g2⟩ := h.pair hn
  obtain ⟨-, -, -, -, hW, hw2⟩ := h.pairTopo hn hw hv1 hv2 hne hV
  unfold backToOrder1Core
  rw [g1, g2]
  simp only [Res.ok_bind]
  peelA
  refine ⟨fun hd w hw hf => ?_, ?_, fun q => ?_⟩
  · have hw' : w ∈ d.W.live := hw
    have hf' : d.fl.wDelta w = true := hf
    rw [hd w hw'] at hf'; cases hf'
  · intro x hx
    have hx' : x ∈ d.W.live := hx
    show _ = (if d.worm.exist = true ∧ _ then _ else _) - (if d.worm.exist = true ∧ _ then _ else _)
    simp only [hw, Bool.false_eq_true, false_and, if_false, sub_zero]
    rw [hW, Finset.mem_singleton] at hx'
    subst hx'
    have hx1 := h.topo.wV_vW _ hv1
    revert hw2 hx1
    cases d.sh.vDir (d.Ver.slot 0) <;> intro hw2 hx1 <;> simp only [Bool.not_true, Bool.not_false] at hw2 <;>
      (rw [hw2, hx1]; simp [excess, upd_apply, hne, hne.symm])
  · have q' : d.worm.exist = true := q
    rw [hw] at q'; cases q'

/-- What every accepted operation does to the three properties. -/
def Kept (d d' : Diag Q F) : Prop :=
  ((d.order = 0 → ∀ w ∈ d.W.live, d.fl.wDelta w = false) → DeltaTau d → DeltaTau d') ∧
  (SpinWOk d → SpinWOk d') ∧ (SpinWOk d → WormSpinOk d → WormSpinOk d')

theorem Ext3.kept {d' : Diag Q F} (h : Ext3 d d') : Kept d d' := ⟨fun _ => h.1, h.2⟩

theorem acc_mono {p q : Diag Q F → Prop} {r : Res (Out Q F)} (h : r.All (Acc p)) (hpq : ∀ d, p d → q d) :
    r.All (Acc q) := fun a e ht => hpq _ (h a e ht)

theorem acc_and {p q : Diag Q F → Prop} {r : Res (Out Q F)} (h : r.All (Acc p)) (h' : r.All (Acc q)) :
    r.All (Acc fun d => p d ∧ q d) := by
  exact fun a e t => ⟨h a e t, h' a e t⟩

theorem acc_same {r : Res (Out Q F)} (h : r.All (Acc (SameTimes d))) (h' : r.All (Acc (SameSpins d))) :
    r.All (Acc (Kept d)) :=
  acc_mono (acc_and h h') fun _ a => ⟨fun _ => a.1.keep, a.2.keep, fun _ => a.2.keepWorm⟩

theorem acc_dt {r : Res (Out Q F)} (h : DeltaTau d → r.All (Acc DeltaTau)) (h' : r.All (Acc (SameSpins d))) :
    r.All (Acc (Kept d)) := by
  exact fun a e t => ⟨fun _ hd => h hd a e t, (h' a e t).keep, fun _ => (h' a e t).keepWorm⟩

theorem runOp_kept (hP : P.Wf) (h : Inv P d) (op : Op) (o : Words) : (runOp P op o d).All (Acc (Kept d)) := by
  cases op <;> unfold runOp <;> dsimp only
  case createWorm =>
    unfold createWorm
    refine Res.all_ite (fun _ => acc_skip) (fun c => ?_)
    simp only [not_or, Bool.not_eq_true] at c
    obtain ⟨w, ew, hw⟩ := h.pickW (o 0)
    obtain ⟨k, ek, -⟩ := pickK_spec (o 1)
    obtain ⟨s, es, hs⟩ := pickDSpin_spec (o 2)
    simp only [ew, ek, es, Res.ok_bind]
    exact acc_mono (createWormCore_extra h c.2 hw hs) fun _ => Ext3.kept
  case deleteWorm =>
    unfold deleteWorm
    refine Res.all_ite (fun _ => acc_skip) (fun c => ?_)
    exact acc_mono deleteWormCore_extra fun _ => Ext3.kept
  case moveWormG =>
    unfold moveWormG
    refine Res.all_ite (fun _ => acc_skip) (fun c => ?_)
    simp only [not_or, Bool.not_eq_false] at c
    refine Res.all_bind fun _ _ => ?_
    exact acc_mono (moveWormGCore_extra h c.2) fun _ => Ext3.kept
  case moveWormW =>
    unfold moveWormW
    refine Res.all_ite (fun _ => acc_skip) (fun c => ?_)
    simp only [not_or, Bool.not_eq_false] at c
    exact acc_mono (moveWormWCore_extra h c.2) fun _ => Ext3.kept
  case reconnect => exact acc_same (reconnect_times P o d) (reconnect_spins P o d)
  case addInteraction =>
    unfold addInteraction
    refine Res.all_ite (fun _ => acc_skip) (fun c => ?_)
    simp only [Bool.not_eq_false] at c
    refine Res.all_ite (fun _ => acc_skip) (fun c2 => ?_)
    simp only [not_or, not_le] at c2
    refine Res.all_bind fun _ _ => ?_
    refine Res.all_bind fun _ _ => ?_
    refine Res.all_bind fun _ _ => ?_
    exact acc_mono (addCore_extra hP h c2.1 (by omega) c (fun q => by cases q)) fun _ a => ⟨fun _ => a.1, a.2⟩
  case delInteraction =>
    unfold delInteraction
    refine Res.all_ite (fun _ => acc_skip) (fun c => ?_)
    simp only [Bool.not_eq_false] at c
    refine Res.all_ite (fun _ => acc_skip) (fun _ => ?_)
    refine Res.all_bind fun _ _ => ?_
    exact acc_mono (delCore_extra h c) fun _ => Ext3.kept
  case addDelta =>
    unfold addDelta
    refine Res.all_ite (fun _ => acc_skip) (fun c => ?_)
    simp only [Bool.not_eq_false] at c
    refine Res.all_ite (fun _ => acc_skip) (fun c2 => ?_)
    simp only [not_or, not_le] at c2
    refine Res.all_bind fun _ _ => ?_
    refine Res.all_bind fun _ _ => ?_
    refine Res.all_bind fun _ _ => ?_
    exact acc_mono (addCore_extra hP h c2.1 (by omega) c (fun _ => rfl)) fun _ a => ⟨fun _ => a.1, a.2⟩
  case delDelta =>
    unfold delDelta
    refine Res.all_ite (fun _ => acc_skip) (fun c => ?_)
    simp only [Bool.not_eq_false] at c
    refine Res.all_ite (fun _ => acc_skip) (fun _ => ?_)
    refine Res.all_bind fun _ _ => ?_
    exact acc_mono (delCore_extra h c) fun _ => Ext3.kept
  case changeTau => exact acc_dt (fun hd => changeTau_times h hd o) (changeTau_spins P o d)
  case delta2cont => exact acc_dt (fun hd => delta2cont_times h hd o) (delta2cont_spins P o d)
  case cont2delta => exact acc_dt (fun hd => cont2delta_times h hd o) (cont2delta_spins P o d)
  case changeRLoop =>
    exact acc_mono (changeRLoop_keep P o d) fun _ a => ⟨fun _ => a.1.keep, a.2.keep, fun _ => a.2.keepWorm⟩
  case backToOrder1 =>
    unfold backToOrder1
    refine Res.all_ite (fun _ => acc_skip) (fun _ => ?_)
    refine Res.all_ite (fun _ => acc_skip) (fun c => ?_)
    simp only [not_or, not_not] at c
    refine Res.all_bind fun _ _ => ?_
    refine Res.all_bind fun _ _ => ?_
    refine Res.all_bind fun _ _ => ?_
    exact acc_mono (backToOrder1Core_extra h c.2) fun _ a => ⟨fun hd _ => a.1 (hd c.2), fun _ => a.2.1, fun _ _ => a.2.2⟩
  case g2w => exact acc_same (g2w_times P o d) (g2w_spins P o d)
  case w2g => exact acc_same (w2g_times P o d) (w2g_spins P o d)
  case toOrder0 => exact acc_same (toOrder0_times P o d) (toOrder0_spins P o d)
  case toGGGammaG => exact acc_same (toGGGammaG_times P o d) (toGGGammaG_spins P o d)
  case fromGGGammaG => exact acc_same (fromGGGammaG_times P o d) (fromGGGammaG_spins P o d)
  case toWWGammaW => exact acc_same (toWWGammaW_times P o d) (toWWGammaW_spins P o d)
  case fromWWGammaW => exact acc_same (fromWWGammaW_times P o d) (fromWWGammaW_spins P o d)
  all_goals exact acc_skip

/-! ## Executions -/

theorem Started.deltaTau {P : Params Q F} {d : Diag Q F} (h : Started P d) : DeltaTau d := by
  intro w hw hf
  rw [h.w, Bundle.ofSize_live (by omega), Finset.mem_range] at hw
  obtain rfl : w = 0 := by omega
  rw [h.wDelta] at hf; cases hf

theorem Started.spinW {P : Params Q F} {d : Diag Q F} (h : Started P d) : SpinWOk d := by
  intro w hw
  rw [h.w, Bundle.ofSize_live (by omega), Finset.mem_range] at hw
  obtain rfl : w = 0 := by omega
  simp [h.worm, h.wV, excess, h.spin, spinUpUp]

theorem Started.wormSpin {P : Params Q F} {d : Diag Q F} (h : Started P d) : WormSpinOk d := by
  intro q; rw [h.worm] at q; cases q

theorem fixed_sameSpins {P : Params Q F} {d : Diag Q F} : SameSpins d (fixed P d) :=
  ⟨rfl, rfl, rfl, rfl, rfl, rfl, rfl, rfl⟩

theorem fixed_sameTimes {P : Params Q F} {d : Diag Q F} : SameTimes d (fixed P d) := ⟨rfl, rfl, rfl, rfl⟩

theorem fixDiagram_fixed {P P' : Params Q F} {d d' : Diag Q F} (h : Inv P d) (e : fixDiagram P' d = .ok d') :
    d' = fixed P' d := by
  rw [h.fix_eq (fixDiagram_ok_gamma e)] at e
  cases e; rfl

theorem Untouched.spinW {d d' : Diag Q F} (h : Untouched d d') : SameSpins d d' ∧ SameTimes d d' := by
  rcases h with rfl | ⟨-, e, rfl⟩
  · exact ⟨⟨rfl, rfl, rfl, rfl, rfl, rfl, rfl, rfl⟩, rfl, rfl, rfl, rfl⟩
  · exact ⟨⟨rfl, rfl, rfl, rfl, rfl, rfl, rfl, rfl⟩, rfl, rfl, rfl, rfl⟩

theorem hopOne_kept {c c' : Chain Q F} (hP : c.P.Wf) (h : Inv c.P c.d) {o : Words} (e : hopOne c o = .ok c') :
    Kept c.d c'.d := by
  unfold hopOne at e
  cases hs : selectOp c.P (urn Q (o 0)) with
  | none =>
    rw [hs] at e
    cases e
    exact ⟨fun _ hd => hd, fun hd => hd, fun _ hd => hd⟩
  | some op =>
    obtain ⟨out, eo, -⟩ := runOp_good hP h op (fun i => o (i + 1))
    have he := runOp_effect c.P op (fun i => o (i + 1)) c.d out eo
    have hk := runOp_kept hP h op (fun i => o (i + 1)) out eo
    rw [hs] at e
    simp only [eo, Res.ok_bind] at e
    cases e
    by_cases ht : out.tag = .accept
    · exact hk ht
    · obtain ⟨h1, h2⟩ := (he.1 ht).spinW
      exact ⟨fun _ => h2.keep, h1.keep, fun _ => h1.keepWorm⟩

/-! ### Loaded diagrams -/

theorem dropWorm_spinW {d : Diag Q F} (h : SpinWOk d) : SpinWOk (dropWorm d) := by
  by_cases c : d.worm.exist = true
  · rw [show dropWorm d = d from by unfold dropWorm; simp only [if_pos c]]; exact h
  · intro w q
    have k := h w q
    simp only [c, false_and, if_false] at k
    have c' : ¬ (dropWorm d).worm.exist = true := c
    simp only [c', false_and, if_false]
    exact k

theorem dropWorm_wormSpin {d : Diag Q F} (h : WormSpinOk d) : WormSpinOk (dropWorm d) := by
  by_cases c : d.worm.exist = true
  · rw [show dropWorm d = d from by unfold dropWorm; simp only [if_pos c]]; exact h
  · exact fun q => absurd q c

section
variable {P : Params Q F} {d d' : Diag Q F}

theorem Relabeled.spin_wV (h : Relabeled d d') (hi : Inv P d) {w : ℕ} (q : w < d.W.avail) (e : Dir) :
    d'.co.spin (d'.sh.wV w e) = d.co.spin (d.sh.wV (d.W.slot w) e) := by
  have m := hi.topo.wV_mem _ (Bundle.slot_mem_live hi.count.wWf q) e
  rw [h.wV _ q, h.spin _ (Bundle.name_lt' m), Bundle.slot_name' hi.count.verWf m]

theorem Relabeled.vW_name (h : Relabeled d d') (hi : Inv P d) {v : ℕ} (m : v ∈ d.Ver.live) :
    d'.sh.vW (d.Ver.name v) = d.W.name (d.sh.vW v) := by
  rw [h.vW _ (Bundle.name_lt' m), Bundle.slot_name' hi.count.verWf m]

theorem Relabeled.mem_w (h : Relabeled d d') (hi : Inv P d) {w : ℕ} : w ∈ d'.W.live ↔ w < d.W.avail := by
  rw [h.w, Bundle.ofSize_live hi.count.wWf.avail_le, Finset.mem_range]

theorem Relabeled.mem_g (h : Relabeled d d') (hi : Inv P d) {w : ℕ} : w ∈ d'.G.live ↔ w < d.G.avail := by
  rw [h.g, Bundle.ofSize_live hi.count.gWf.avail_le, Finset.mem_range]

theorem name_slot_iff {b : Bundle} (hb : b.Wf) {p i : ℕ} (hp : p ∈ b.live) (hi : i < b.avail) :
    b.name p = i ↔ p = b.slot i := by
  rw [← Bundle.name_eq_iff hb hp (Bundle.slot_mem_live hb hi), Bundle.name_slot' hb hi]

theorem Relabeled.spinW (h : Relabeled d d') (hi : Inv P d) (hs : SpinWOk d) : SpinWOk d' := by
  intro w q
  rw [h.mem_w hi] at q
  have k := hs _ (Bundle.slot_mem_live hi.count.wWf q)
  unfold excess at k ⊢
  rw [h.spin_wV hi q, h.spin_wV hi q, k, h.exist]
  by_cases c : d.worm.exist = true
  · have mI := hi.worm.ira_mem c
    have mM := hi.worm.masha_mem c
    rw [h.ira c, h.masha c, h.dSpin c, h.vW_name hi mI, h.vW_name hi mM]
    simp only [name_slot_iff hi.count.wWf (hi.topo.vW_mem _ mI) q, name_slot_iff hi.count.wWf (hi.topo.vW_mem _ mM) q]
  · simp only [c, false_and, if_false, Bool.false_eq_true]

theorem Relabeled.wormSpin (h : Relabeled d d') (hi : Inv P d) (hs : WormSpinOk d) : WormSpinOk d' := by
  intro c
  rw [h.exist] at c
  have k := hs c
  have mI := hi.worm.ira_mem c
  have mM := hi.worm.masha_mem c
  have mW := hi.topo.vW_mem _ mM
  have l := Bundle.name_lt' mW
  unfold excess at k ⊢
  rw [h.ira c, h.masha c, h.dSpin c, h.vW_name hi mM, h.spin_wV hi l, h.wV _ l, Bundle.slot_name' hi.count.wWf mW]
  simp only [Bundle.name_eq_iff hi.count.verWf mI (hi.topo.wV_mem _ mW IN)]
  exact k

theorem Relabeled.deltaTau (h : Relabeled d d') (hi : Inv P d) (hs : DeltaTau d) : DeltaTau d' := by
  intro w q k
  rw [h.mem_w hi] at q
  rw [h.wDelta _ q] at k
  have mw := Bundle.slot_mem_live hi.count.wWf q
  have e := hs _ mw k
  have m1 := hi.topo.wV_mem _ mw IN
  have m2 := hi.topo.wV_mem _ mw OUT
  rw [h.wV _ q, h.wV _ q, h.tau _ (Bundle.name_lt' m1), h.tau _ (Bundle.name_lt' m2),
    Bundle.slot_name' hi.count.verWf m1, Bundle.slot_name' hi.count.verWf m2]
  exact e

theorem Relabeled.siteG (h : Relabeled d d') (hi : Inv P d) (hs : SiteGOk d) : SiteGOk d' := by
  intro g q e
  rw [h.mem_g hi] at q
  have mg := Bundle.slot_mem_live hi.count.gWf q
  have m1 := hi.topo.gV_mem _ mg e
  have m2 := hi.topo.gV_mem _ mg (!e)
  rw [h.gV _ q, h.gV _ q, h.r _ (Bundle.name_lt' m1), h.r _ (Bundle.name_lt' m2),
    Bundle.slot_name' hi.count.verWf m1, Bundle.slot_name' hi.count.verWf m2]
  exact hs _ mg e

end

theorem Reach.spins {P₀ : Params Q F} (hP : P₀.Wf) (hS : StartOk P₀) {c : Chain Q F} (h : Reach P₀ c) :
    SpinWOk c.d ∧ WormSpinOk c.d := by
  induction h with
  | start d₀ d hf e =>
    obtain ⟨d', e', hs⟩ := buildNew_started (P := P₀) hf
    rw [e] at e'; cases e'
    exact ⟨hs.spinW, hs.wormSpin⟩
  | hop c c' o hr e ih =>
    obtain ⟨h1, h2⟩ := hr.inv hP hS
    have hk := hopOne_kept h1 h2 e
    exact ⟨hk.2.1 ih.1, hk.2.2 ih.1 ih.2⟩
  | reweight c P' _ _ ih => exact ih
  | anneal c P' d' hr _ _ e _ ih =>
    obtain rfl := fixDiagram_fixed (hr.inv hP hS).2 e
    exact ⟨fixed_sameSpins.keep ih.1, fixed_sameSpins.keepWorm ih.2⟩
  | restart c P' dict d₀ d' n hr ha hγ es h0 el hn ih =>
    obtain ⟨hR, hf, -⟩ := restart_spec (hr.inv hP hS).2 ha hγ h0 es el hn
    exact ⟨hR.spinW hf (fixed_sameSpins.keep (dropWorm_spinW ih.1)),
      hR.wormSpin hf (fixed_sameSpins.keepWorm (dropWorm_wormSpin ih.2))⟩

theorem ReachD.reach {P₀ : Params Q F} {c : Chain Q F} (h : ReachD P₀ c) : Reach P₀ c := by
  induction h with
  | start d₀ d hf e => exact .start d₀ d hf e
  | hop c c' o _ _ e ih => exact .hop c c' o ih e
  | reweight c P' _ hm ih => exact .reweight c P' ih hm
  | anneal c P' d' _ ha hs e hn ih => exact .anneal c P' d' ih ha hs e hn
  | restart c P' dict d₀ d' n _ ha hγ es h0 el hn ih => exact .restart c P' dict d₀ d' n ih ha hγ es h0 el hn

theorem ReachD.deltaTau {P₀ : Params Q F} (hP : P₀.Wf) (hS : StartOk P₀) {c : Chain Q F} (h : ReachD P₀ c) :
    DeltaTau c.d := by
  induction h with
  | start d₀ d hf e =>
    obtain ⟨d', e', hs⟩ := buildNew_started (P := P₀) hf
    rw [e] at e'; cases e'
    exact hs.deltaTau
  | hop c c' o hr hd e ih =>
    obtain ⟨h1, h2⟩ := hr.reach.inv hP hS
    exact (hopOne_kept h1 h2 e).1 hd ih
  | reweight c P' _ _ ih => exact ih
  | anneal c P' d' hr _ _ e _ ih =>
    obtain rfl := fixDiagram_fixed (hr.reach.inv hP hS).2 e
    exact fixed_sameTimes.keep ih
  | restart c P' dict d₀ d' n hr ha hγ es h0 el hn ih =>
    obtain ⟨hR, hf, -⟩ := restart_spec (hr.reach.inv hP hS).2 ha hγ h0 es el hn
    exact hR.deltaTau hf (fixed_sameTimes.keep (d := dropWorm c.d) ih)

end
end Feyn
