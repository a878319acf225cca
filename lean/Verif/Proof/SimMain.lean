import Verif.Proof.SimAdd
import Verif.Proof.Reach
import Verif.Model.Monitor

/-! # Whole runs on diagrams that differ in layout only -/

set_option linter.unusedSectionVars false
set_option linter.unusedSimpArgs false

namespace Feyn
variable {Q F : Type} [Field Q] [LinearOrder Q] [IsStrictOrderedRing Q] [Field F]
variable {P P' : Params Q F} {d d' : Diag Q F} {ρ : Ren}

theorem pick_live {b : Bundle} (h : b.Wf) (hb : 0 < b.avail) {w : Word} {p : ℕ} (e : b.pick w = .ok p) : p ∈ b.live := by
  obtain ⟨q, e', hq⟩ := Bundle.pick_spec h hb w
  rw [e] at e'
  cases e'
  exact hq

theorem Inv.pickW' (h : Inv P d) {w : Word} {p : ℕ} (e : d.W.pick w = .ok p) : p ∈ d.W.live := by
  obtain ⟨q, e', hq⟩ := h.pickW w
  rw [e] at e'
  cases e'
  exact hq

theorem Inv.pickG' (h : Inv P d) {w : Word} {p : ℕ} (e : d.G.pick w = .ok p) : p ∈ d.G.live := by
  obtain ⟨q, e', hq⟩ := h.pickG w
  rw [e] at e'
  cases e'
  exact hq

theorem Inv.pickVer' (h : Inv P d) {w : Word} {p : ℕ} (e : d.Ver.pick w = .ok p) : p ∈ d.Ver.live := by
  obtain ⟨q, e', hq⟩ := h.pickVer w
  rw [e] at e'
  cases e'
  exact hq

theorem pickSite_in (hP : P.Wf) {a b c : Word} {r : Site} (e : pickSite P a b c = .ok r) : SiteIn P r := by
  obtain ⟨r', e', hr⟩ := pickSite_spec hP a b c
  rw [e] at e'
  cases e'
  exact hr

theorem createWorm_sim (T : TabEq P P') (hi : Inv P d) (S : Alike BSim ρ d d') (o : Words) :
    Res.Rel (OutSim BSim ρ) (createWorm P o d) (createWorm P' o d') := by
  unfold createWorm
  refine .ite (by rw [S.order, S.exist]) (fun _ => skip_sim S) fun c => ?_
  refine (S.bW.pick _).bind fun w _ e hw => ?_
  subst hw
  exact .same _ fun _ _ => .same _ fun _ _ => createWormCore_sim T hi S (hi.pickW' e) _ _ _

theorem deleteWorm_sim (T : TabEq P P') (hi : Inv P d) (S : Alike BSim ρ d d') (o : Words) :
    Res.Rel (OutSim BSim ρ) (deleteWorm P o d) (deleteWorm P' o d') := by
  unfold deleteWorm
  refine .ite (by rw [S.order, S.exist]) (fun _ => skip_sim S) fun c => ?_
  simp only [not_or, Bool.not_eq_false] at c
  exact deleteWormCore_sim T hi S c.2 _

theorem moveWormG_sim (T : TabEq P P') (hi : Inv P d) (S : Alike BSim ρ d d') (o : Words) :
    Res.Rel (OutSim BSim ρ) (moveWormG P o d) (moveWormG P' o d') := by
  unfold moveWormG
  refine .ite (by rw [S.order, S.exist]) (fun _ => skip_sim S) fun c => ?_
  simp only [not_or, Bool.not_eq_false] at c
  exact .same _ fun _ _ => moveWormGCore_sim T hi S c.2 _ _

theorem moveWormW_sim (T : TabEq P P') (hi : Inv P d) (S : Alike BSim ρ d d') (o : Words) :
    Res.Rel (OutSim BSim ρ) (moveWormW P o d) (moveWormW P' o d') := by
  unfold moveWormW
  refine .ite (by rw [S.order, S.exist]) (fun _ => skip_sim S) fun c => ?_
  simp only [not_or, Bool.not_eq_false] at c
  exact moveWormWCore_sim T hi S c.2 _

theorem reconnect_sim (T : TabEq P P') (hi : Inv P d) (S : Alike BSim ρ d d') (o : Words) :
    Res.Rel (OutSim BSim ρ) (reconnect P o d) (reconnect P' o d') := by
  unfold reconnect
  refine .ite (by rw [S.order, S.exist]) (fun _ => skip_sim S) fun c => ?_
  simp only [not_or, Bool.not_eq_false] at c
  have ha := hi.worm.ira_mem c.2
  have hb := hi.worm.masha_mem c.2
  simp only [S.ira c.2, S.masha c.2, deref_V, deref_live ha, deref_live hb, Res.ok_bind, S.r _ ha, S.r _ hb]
  refine .ite Iff.rfl (fun _ => skip_sim S) fun _ => ?_
  exact .same _ fun _ _ => reconnectCore_sim T hi S c.2 _ _

theorem addInteraction_sim (hP : P.Wf) (T : TabEq P P') (hi : Inv P d) (S : Alike BSim ρ d d') (o : Words) :
    Res.Rel (OutSim BSim ρ) (addInteraction P o d) (addInteraction P' o d') := by
  unfold addInteraction
  refine .ite (by rw [S.exist]) (fun _ => skip_sim S) fun c => ?_
  refine .ite (by rw [S.order, T.maxOrd]) (fun _ => skip_sim S) fun c2 => ?_
  simp only [Bool.not_eq_false] at c
  have hr := hi.room hP c (by omega)
  rw [T.pickTau, T.pickTau]
  exact .same _ fun _ _ => .same _ fun _ _ => .same _ fun _ _ =>
    addCore_sim T hi S c (S.bV.adds ρ.fixV 2 hi.count.verWf hr.1) (S.bG.adds ρ.fixG 2 hi.count.gWf hr.2.1)
      (S.bW.adds ρ.fixW 1 hi.count.wWf hr.2.2) _ _ _ _ (pickTau_in hP _) (pickTau_in hP _) _

theorem addDelta_sim (hP : P.Wf) (T : TabEq P P') (hi : Inv P d) (S : Alike BSim ρ d d') (o : Words) :
    Res.Rel (OutSim BSim ρ) (addDelta P o d) (addDelta P' o d') := by
  unfold addDelta
  refine .ite (by rw [S.exist]) (fun _ => skip_sim S) fun c => ?_
  refine .ite (by rw [S.order, T.maxOrd]) (fun _ => skip_sim S) fun c2 => ?_
  simp only [Bool.not_eq_false] at c
  have hr := hi.room hP c (by omega)
  rw [T.pickTau]
  exact .same _ fun _ _ => .same _ fun _ _ => .same _ fun _ _ =>
    addCore_sim T hi S c (S.bV.adds ρ.fixV 2 hi.count.verWf hr.1) (S.bG.adds ρ.fixG 2 hi.count.gWf hr.2.1)
      (S.bW.adds ρ.fixW 1 hi.count.wWf hr.2.2) _ _ _ _ (pickTau_in hP _) (pickTau_in hP _) _

theorem delInteraction_sim (T : TabEq P P') (hi : Inv P d) (S : Alike BSim ρ d d') (o : Words) :
    Res.Rel (OutSim BSim ρ) (delInteraction P o d) (delInteraction P' o d') := by
  unfold delInteraction
  refine .ite (by rw [S.exist]) (fun _ => skip_sim S) fun c => ?_
  refine .ite (by rw [S.order]) (fun _ => skip_sim S) fun c2 => ?_
  simp only [Bool.not_eq_false] at c
  exact .same _ fun _ _ => delCore_sim BSim.removes T hi S c _ _ _

theorem delDelta_sim (T : TabEq P P') (hi : Inv P d) (S : Alike BSim ρ d d') (o : Words) :
    Res.Rel (OutSim BSim ρ) (delDelta P o d) (delDelta P' o d') := by
  unfold delDelta
  refine .ite (by rw [S.exist]) (fun _ => skip_sim S) fun c => ?_
  refine .ite (by rw [S.order]) (fun _ => skip_sim S) fun c2 => ?_
  simp only [Bool.not_eq_false] at c
  exact .same _ fun _ _ => delCore_sim BSim.removes T hi S c _ _ _

theorem changeTau_sim (hP : P.Wf) (T : TabEq P P') (hi : Inv P d) (S : Alike BSim ρ d d') (o : Words) :
    Res.Rel (OutSim BSim ρ) (changeTau P o d) (changeTau P' o d') := by
  unfold changeTau
  refine .ite (by rw [S.order, S.exist]) (fun _ => skip_sim S) fun c => ?_
  refine (S.bV.pick _).bind fun w _ e hw => ?_
  subst hw
  rw [T.pickTau]
  exact changeTauCore_sim T hi S (hi.pickVer' e) (pickTau_in hP _) _

theorem delta2cont_sim (hP : P.Wf) (T : TabEq P P') (hi : Inv P d) (S : Alike BSim ρ d d') (o : Words) :
    Res.Rel (OutSim BSim ρ) (delta2cont P o d) (delta2cont P' o d') := by
  unfold delta2cont
  refine .ite (by rw [S.order, S.exist]) (fun _ => skip_sim S) fun c => ?_
  refine (S.bW.pick _).bind fun w _ e hw => ?_
  subst hw
  rw [T.pickTau]
  exact delta2contCore_sim T hi S (hi.pickW' e) (pickTau_in hP _) _

theorem cont2delta_sim (T : TabEq P P') (hi : Inv P d) (S : Alike BSim ρ d d') (o : Words) :
    Res.Rel (OutSim BSim ρ) (cont2delta P o d) (cont2delta P' o d') := by
  unfold cont2delta
  refine .ite (by rw [S.order, S.exist]) (fun _ => skip_sim S) fun c => ?_
  refine (S.bW.pick _).bind fun w _ e hw => ?_
  subst hw
  exact cont2deltaCore_sim T hi S (hi.pickW' e) _

theorem changeRLoop_sim (hP : P.Wf) (T : TabEq P P') (hi : Inv P d) (S : Alike BSim ρ d d') (o : Words) :
    Res.Rel (OutSim BSim ρ) (changeRLoop P o d) (changeRLoop P' o d') := by
  unfold changeRLoop
  refine .ite (by rw [S.order, S.exist]) (fun _ => skip_sim S) fun c => ?_
  refine .ite (by rw [T.maxOrd]) (fun _ => trivial) fun c2 => ?_
  refine (S.bV.pick _).bind fun w _ e hw => ?_
  subst hw
  have hv := hi.pickVer' e
  simp only [deref_V, deref_live hv, Res.ok_bind, S.r _ hv, T.pickSite]
  refine (loopWalk_sim hi S (S.bV.names _) (S.bW.names _) (d.co.r w) _ w [] _ _ _ _ (fun _ _ => rfl) (fun _ _ => rfl) hv
    (by simp)).bind fun x x' _ h => ?_
  rcases h with ⟨rfl, rfl⟩ | ⟨vs, fw, fw', rfl, rfl, hm, hx⟩
  · exact skip_sim S
  · refine .same _ fun r hr => ?_
    exact changeRLoopCore_sim T hi S hx (S.bW.names _) hm _ (pickSite_in hP hr) _

theorem g2w_sim (T : TabEq P P') (hi : Inv P d) (S : Alike BSim ρ d d') (o : Words) :
    Res.Rel (OutSim BSim ρ) (g2w P o d) (g2w P' o d') := by
  unfold g2w
  refine .ite (by rw [S.order, S.exist, S.measG]) (fun _ => skip_sim S) fun c => ?_
  refine .ite (by rw [S.hasGamma]) (fun _ => skip_sim S) fun c2 => ?_
  simp only [not_or, Bool.not_eq_false] at c
  refine (S.bW.pick _).bind fun w _ e hw => ?_
  subst hw
  exact g2wCore_sim T hi S c.2.2 (hi.pickW' e) _

theorem w2g_sim (T : TabEq P P') (hi : Inv P d) (S : Alike BSim ρ d d') (o : Words) :
    Res.Rel (OutSim BSim ρ) (w2g P o d) (w2g P' o d') := by
  unfold w2g
  refine .ite (by rw [S.order, S.exist, S.measG]) (fun _ => skip_sim S) fun c => ?_
  refine .ite (by rw [S.hasGamma]) (fun _ => skip_sim S) fun c2 => ?_
  simp only [not_or, Bool.not_eq_true] at c
  refine (S.bG.pick _).bind fun w _ e hw => ?_
  subst hw
  exact w2gCore_sim T hi S c.2.2 (hi.pickG' e) _

theorem toOrder0_sim (T : TabEq P P') (hi : Inv P d) (S : Alike BSim ρ d d') (o : Words) :
    Res.Rel (OutSim BSim ρ) (toOrder0 P o d) (toOrder0 P' o d') := by
  unfold toOrder0
  refine .ite (by rw [S.order, S.exist]) (fun _ => skip_sim S) fun c => ?_
  refine .ite (by rw [S.hasGamma]) (fun _ => skip_sim S) fun c2 => ?_
  exact toOrder0Core_sim T hi S _

theorem backToOrder1_sim (hP : P.Wf) (T : TabEq P P') (hi : Inv P d) (S : Alike BSim ρ d d') (o : Words) :
    Res.Rel (OutSim BSim ρ) (backToOrder1 P o d) (backToOrder1 P' o d') := by
  unfold backToOrder1
  refine .ite (by rw [S.hasGamma]) (fun _ => skip_sim S) fun c => ?_
  refine .ite (by rw [S.order, S.exist]) (fun _ => skip_sim S) fun c2 => ?_
  rw [T.pickSite, T.pickTau, T.pickTau]
  exact .same _ fun r hr => .same _ fun _ _ => .same _ fun _ _ =>
    backToOrder1Core_sim T hi S (pickSite_in hP hr) (pickTau_in hP _) (pickTau_in hP _) _ _ _

theorem toGGGammaG_sim (hP : P.Wf) (T : TabEq P P') (hi : Inv P d) (S : Alike BSim ρ d d') (o : Words) :
    Res.Rel (OutSim BSim ρ) (toGGGammaG P o d) (toGGGammaG P' o d') := by
  unfold toGGGammaG
  refine .ite (by rw [S.order, S.exist, S.hasGamma]) (fun _ => skip_sim S) fun c => ?_
  refine (S.bG.pick _).bind fun w _ e hw => ?_
  subst hw
  rw [T.pickTau]
  exact toGGGammaGCore_sim T hi S (hi.pickG' e) (pickTau_in hP _) _

theorem fromGGGammaG_sim (T : TabEq P P') (hi : Inv P d) (S : Alike BSim ρ d d') (o : Words) :
    Res.Rel (OutSim BSim ρ) (fromGGGammaG P o d) (fromGGGammaG P' o d') := by
  unfold fromGGGammaG
  refine .ite (by rw [S.order, S.exist, S.hasGamma]) (fun _ => skip_sim S) fun c => ?_
  simp only [not_or, ne_eq, not_not] at c
  exact fromGGGammaGCore_sim T hi S c.2.2 _

theorem toWWGammaW_sim (hP : P.Wf) (T : TabEq P P') (hi : Inv P d) (S : Alike BSim ρ d d') (o : Words) :
    Res.Rel (OutSim BSim ρ) (toWWGammaW P o d) (toWWGammaW P' o d') := by
  unfold toWWGammaW
  refine .ite (by rw [S.order, S.exist, S.hasGamma]) (fun _ => skip_sim S) fun c => ?_
  refine (S.bW.pick _).bind fun w _ e hw => ?_
  subst hw
  rw [T.pickTau, T.pickSite]
  exact .same _ fun r hr => toWWGammaWCore_sim T hi S (hi.pickW' e) (pickTau_in hP _) (pickSite_in hP hr) _

theorem fromWWGammaW_sim (T : TabEq P P') (hi : Inv P d) (S : Alike BSim ρ d d') (o : Words) :
    Res.Rel (OutSim BSim ρ) (fromWWGammaW P o d) (fromWWGammaW P' o d') := by
  unfold fromWWGammaW
  refine .ite (by rw [S.order, S.exist, S.hasGamma]) (fun _ => skip_sim S) fun c => ?_
  simp only [not_or, ne_eq, not_not] at c
  exact fromWWGammaWCore_sim T hi S c.2.2 _

/-- Every update does the same on both diagrams. -/
theorem runOp_sim (hP : P.Wf) (T : TabEq P P') (hi : Inv P d) (S : Alike BSim ρ d d') (op : Op) (o : Words) :
    Res.Rel (OutSim BSim ρ) (runOp P op o d) (runOp P' op o d') := by
  cases op
  · exact createWorm_sim T hi S o
  · exact deleteWorm_sim T hi S o
  · exact moveWormG_sim T hi S o
  · exact moveWormW_sim T hi S o
  · exact reconnect_sim T hi S o
  · exact addInteraction_sim hP T hi S o
  · exact delInteraction_sim T hi S o
  · exact addDelta_sim hP T hi S o
  · exact delDelta_sim T hi S o
  · exact changeTau_sim hP T hi S o
  · exact skip_sim S
  · exact changeRLoop_sim hP T hi S o
  · exact g2w_sim T hi S o
  · exact w2g_sim T hi S o
  · exact delta2cont_sim hP T hi S o
  · exact cont2delta_sim T hi S o
  · exact skip_sim S
  · exact toOrder0_sim T hi S o
  · exact backToOrder1_sim hP T hi S o
  · exact toGGGammaG_sim hP T hi S o
  · exact fromGGGammaG_sim T hi S o
  · exact toWWGammaW_sim hP T hi S o
  · exact fromWWGammaW_sim T hi S o

theorem TabEq.selectOp (T : TabEq P P') (x : Q) : Feyn.selectOp P' x = Feyn.selectOp P x := by
  have h1 : numOps P' = numOps P := by unfold numOps; rw [T.runGamma3]
  have h2 : probOfIdx P' = probOfIdx P := by funext i; unfold probOfIdx; rw [h1]
  unfold Feyn.selectOp
  rw [h1, h2]

/-- Chains with the same parameters and diagrams of the same content, whose counters have grown by the same amounts since `a` and `b`. -/
structure ChainSim (ρ : Ren) (a b c c' : Chain Q F) : Prop where
  tab : TabEq c.P c'.P
  diag : Alike BSim ρ c.d c'.d
  counter : c'.counter + a.counter = c.counter + b.counter
  proposed : ∀ op n, c'.proposed op n + a.proposed op n = c.proposed op n + b.proposed op n
  accepted : ∀ op n, c'.accepted op n + a.accepted op n = c.accepted op n + b.accepted op n

theorem bump_add {f f' g g' : Op → ℕ → ℕ} (h : ∀ op n, f' op n + g op n = f op n + g' op n) (op : Op) (n : ℕ) :
    ∀ op' n', bump f' op n op' n' + g op' n' = bump f op n op' n' + g' op' n' := by
  intro op' n'
  have := h op' n'
  unfold bump
  split_ifs <;> omega

theorem hopOne_sim {a b c c' : Chain Q F} (hP : c.P.Wf) (hi : Inv c.P c.d) (S : ChainSim ρ a b c c') (o : Words) :
    Res.Rel (ChainSim ρ a b) (hopOne c o) (hopOne c' o) := by
  have hc := S.counter
  unfold hopOne
  rw [S.tab.selectOp]
  cases selectOp c.P (urn Q (o 0)) with
  | none => exact { S with counter := by dsimp only; omega }
  | some op =>
    refine (runOp_sim hP S.tab hi S.diag op _).bind fun x x' _ h => ?_
    obtain ⟨h1, h2, h3⟩ := h
    refine { S with diag := h3, counter := ?_, proposed := ?_, accepted := ?_ }
    · simp only [Chain.book]; omega
    · simp only [Chain.book, h1, S.diag.order]
      split_ifs
      · exact S.proposed
      · exact bump_add S.proposed _ _
    · simp only [Chain.book, h1, S.diag.order]
      split_ifs
      · exact bump_add S.accepted _ _
      · exact S.accepted

theorem hop_sim {a b : Chain Q F} : ∀ (os : List Words) (c c' : Chain Q F), c.P.Wf → Inv c.P c.d → ChainSim ρ a b c c' →
    ∃ e e', hop c os = .ok e ∧ hop c' os = .ok e' ∧ ChainSim ρ a b e e' ∧ e.P.Wf ∧ Inv e.P e.d := by
  intro os
  induction os with
  | nil => intro c c' hP hi S; exact ⟨c, c', rfl, rfl, S, hP, hi⟩
  | cons o os ih =>
    intro c c' hP hi S
    obtain ⟨e, h1, -⟩ := hopOne_ok hP hi o
    obtain ⟨hp, hi1⟩ := hopOne_inv hP hi h1
    have hP1 : e.P.Wf := hp ▸ hP
    have h2 := hopOne_sim hP hi S o
    rw [h1] at h2
    obtain ⟨e', h3, h4⟩ := h2.of_ok
    unfold hop
    rw [h1, h3]
    exact ih e e' hP1 hi1 h4

/-! ### Observations -/

theorem collectM_congr {α β : Type} {f g : α → Res β} : ∀ {l : List α}, (∀ x ∈ l, f x = g x) → collectM f l = collectM g l := by
  intro l
  induction l with
  | nil => intro _; rfl
  | cons x l ih =>
    intro h
    unfold collectM
    rw [h x List.mem_cons_self, ih fun y hy => h y (List.mem_cons_of_mem _ hy)]

theorem get_sim {π : Equiv.Perm ℕ} {b b' : Bundle} (h : BSim π b b') (hb : b.Wf) {i : ℕ} (hi : i < b.avail) :
    b.get i = .ok (b.slot i) ∧ b'.get i = .ok (π (b.slot i)) := by
  have h1 := hb.avail_le
  have h2 := h.avail
  unfold Bundle.get
  rw [if_neg (by omega), if_pos (by omega), if_neg (by omega), if_pos (by omega), h.slot i (by omega)]
  exact ⟨rfl, rfl⟩

/-- Both diagrams are saved in the same way. -/
theorem Alike.toDict (S : Alike BSim ρ d d') (hi : Inv P d) : Feyn.toDict d' = Feyn.toDict d := by
  have hc := hi.count
  have e1 : collectM (verToDict d') (List.range d'.Ver.avail) = collectM (verToDict d) (List.range d.Ver.avail) := by
    rw [S.bV.avail]
    refine collectM_congr fun i h => ?_
    obtain ⟨g1, g2⟩ := get_sim S.bV hc.verWf (List.mem_range.1 h)
    have hl := Bundle.slot_mem_live hc.verWf (List.mem_range.1 h)
    unfold verToDict
    rw [g1, g2]
    simp only [Res.ok_bind, deref_V, deref_live hl, S.bV.name _ (Bundle.live_lt hl), S.r _ hl, S.tau _ hl, S.spin _ hl]
  have e2 : collectM (gToDict d') (List.range d'.G.avail) = collectM (gToDict d) (List.range d.G.avail) := by
    rw [S.bG.avail]
    refine collectM_congr fun i h => ?_
    obtain ⟨g1, g2⟩ := get_sim S.bG hc.gWf (List.mem_range.1 h)
    have hl := Bundle.slot_mem_live hc.gWf (List.mem_range.1 h)
    have hv := hi.topo.gV_mem _ hl
    unfold gToDict
    rw [g1, g2]
    simp only [Res.ok_bind, deref_V, deref_G, deref_live hl, deref_live (hv _), S.gV _ hl, S.bV.name _ (Bundle.live_lt (hv _)), S.gK _ hl,
      S.gMeas _ hl, S.gGam _ hl]
  have e3 : collectM (wToDict d') (List.range d'.W.avail) = collectM (wToDict d) (List.range d.W.avail) := by
    rw [S.bW.avail]
    refine collectM_congr fun i h => ?_
    obtain ⟨g1, g2⟩ := get_sim S.bW hc.wWf (List.mem_range.1 h)
    have hl := Bundle.slot_mem_live hc.wWf (List.mem_range.1 h)
    have hv := hi.topo.wV_mem _ hl
    unfold wToDict
    rw [g1, g2]
    simp only [Res.ok_bind, deref_V, deref_W, deref_live hl, deref_live (hv _), S.wV _ hl, S.bV.name _ (Bundle.live_lt (hv _)), S.wK _ hl,
      S.wMeas _ hl, S.wDelta _ hl, S.wGam _ hl]
  unfold Feyn.toDict
  rw [e1, e2, e3, S.exist, S.sfl]
  by_cases he : d.worm.exist = true
  · have ha := hi.worm.ira_mem he
    have hb := hi.worm.masha_mem he
    have e4 : wormToDict d' = wormToDict d := by
      unfold wormToDict
      simp only [S.ira he, S.masha he, deref_V, deref_live ha, deref_live hb, Res.ok_bind, S.bV.name _ (Bundle.live_lt ha),
        S.bV.name _ (Bundle.live_lt hb), S.dSpin he, S.k he]
    rw [e4]
  · simp only [if_neg he]

/-- Both diagrams are the same diagram. -/
theorem Alike.same (S : Alike BSim ρ d d') (hi : Inv P d) : SameDiagram d d' := by
  have hc := hi.count
  have key : ∀ {π : Equiv.Perm ℕ} {b b' : Bundle}, BSim π b b' → b.Wf → ∀ {i p p' : ℕ}, b.get i = .ok p → b'.get i = .ok p' →
      p' = π p ∧ p ∈ b.live := by
    intro π b b' h hb i p p' h1 h2
    have hl := get_live hb h1
    have := h.get i
    rw [h1, h2] at this
    exact ⟨this, hl⟩
  constructor
  · exact S.bV.avail
  · exact S.bG.avail
  · exact S.bW.avail
  · exact S.order
  · exact S.sfl
  · exact S.weight
  · exact S.phase
  · exact S.hasGamma
  · exact S.gHash
  · exact S.wHash
  · intro i v v' h1 h2
    obtain ⟨rfl, hl⟩ := key S.bV hc.verWf h1 h2
    refine ⟨S.r _ hl, S.tau _ hl, fun e => by rw [S.spin _ hl], S.vDir _ hl, ?_, fun e => ?_⟩
    · rw [S.vW _ hl, S.bW.name _ (Bundle.live_lt (hi.topo.vW_mem _ hl))]
    · rw [S.vG _ hl, S.bG.name _ (Bundle.live_lt (hi.topo.vG_mem _ hl e))]
  · intro i v v' h1 h2
    obtain ⟨rfl, hl⟩ := key S.bG hc.gWf h1 h2
    refine ⟨fun e => ?_, S.gK _ hl, S.gMeas _ hl, S.gGam _ hl, S.gWt _ hl⟩
    rw [S.gV _ hl, S.bV.name _ (Bundle.live_lt (hi.topo.gV_mem _ hl e))]
  · intro i v v' h1 h2
    obtain ⟨rfl, hl⟩ := key S.bW hc.wWf h1 h2
    refine ⟨fun e => ?_, S.wK _ hl, S.wMeas _ hl, S.wGam _ hl, S.wDelta _ hl, S.wWorm _ hl, S.wWt _ hl⟩
    rw [S.wV _ hl, S.bV.name _ (Bundle.live_lt (hi.topo.wV_mem _ hl e))]
  · exact S.exist
  · intro he
    rw [S.ira he, S.masha he, S.bV.name _ (Bundle.live_lt (hi.worm.ira_mem he)), S.bV.name _ (Bundle.live_lt (hi.worm.masha_mem he))]
    exact ⟨rfl, rfl, S.k he, S.dSpin he, S.wormWt he⟩
  · exact S.measG
  · intro hm
    rw [S.gMeasure hm, S.bG.name _ (Bundle.live_lt (hi.meas.g_mem hm))]
  · intro hm
    rw [S.wMeasure hm, S.bW.name _ (Bundle.live_lt (hi.meas.w_mem hm))]

/-- A measurement does the same on both diagrams. -/
theorem Alike.measure [FloorRing Q] [Algebra Q F] [StarRing F] (T : TabEq P P') (S : Alike BSim ρ d d') (hi : Inv P d) (m : Monitor Q F) :
    m.measure P' d' = m.measure P d := by
  have e1 : ∀ m : Monitor Q F, m.count P' d' = m.count P d := by
    intro m
    unfold Monitor.count
    rw [S.exist, S.order, S.hasGamma, S.measG, T.runGamma3]
  have e2 : ∀ (x : Q) (m : Monitor Q F), m.norm P' d' x = m.norm P d x := by
    intro x m
    unfold Monitor.norm
    rw [S.order, S.measG, T.runGamma3]
  have e3 : ∀ (x : Q) (m : Monitor Q F), m.data P' d' x = m.data P d x := by
    intro x m
    unfold Monitor.data
    rw [S.order, S.measG, T.runGamma3, S.hasGamma, S.phase, T.gammaGRW, T.gammaWRW]
    cases hm : d.measG
    · have hw := hi.meas.w_mem hm
      have hv := hi.topo.wV_mem _ hw
      simp only [Bool.false_eq_true, if_false, S.wMeasure hm, deref_V, deref_W, deref_live hw, deref_live (hv _), Res.ok_bind, S.wV _ hw, S.r _ (hv _), S.tau _ (hv _),
        S.spin _ (hv _)]
      split_ifs with h1 <;> first | rfl | skip
      have hne : d.hasGamma ≠ 0 := by
        simp only [Bool.or_eq_true, decide_eq_true_eq, not_or] at h1
        exact h1.2
      rw [S.ext hne]
    · have hg := hi.meas.g_mem hm
      have hv := hi.topo.gV_mem _ hg
      simp only [if_true, S.gMeasure hm, deref_V, deref_G, deref_live hg, deref_live (hv _), Res.ok_bind, S.gV _ hg, S.r _ (hv _), S.tau _ (hv _),
        S.spin _ (hv _)]
      split_ifs with h1 <;> first | rfl | skip
      have hne : d.hasGamma ≠ 0 := by
        simp only [Bool.or_eq_true, decide_eq_true_eq, not_or] at h1
        exact h1.2
      rw [S.ext hne]
  unfold Monitor.measure
  rw [S.order, T.rw, S.exist]
  simp only [e1, e2, e3]

/-! ### Where such diagrams come from -/

/-- The permutation of the cells that moves every component to the cell which is its name. -/
def Bundle.toName (b : Bundle) (h : b.Wf) : Equiv.Perm ℕ where
  toFun p := if p < MAX_BUNDLE then b.name p else p
  invFun i := if i < MAX_BUNDLE then b.slot i else i
  left_inv p := by
    by_cases c : p < MAX_BUNDLE
    · simp only [if_pos c, if_pos (h.name_lt p c)]
      exact h.slot_name p c
    · simp only [if_neg c]
  right_inv i := by
    by_cases c : i < MAX_BUNDLE
    · simp only [if_pos c, if_pos (h.slot_lt i c)]
      exact h.name_slot i c
    · simp only [if_neg c]

theorem Bundle.toName_apply {b : Bundle} (h : b.Wf) {p : ℕ} (hp : p < MAX_BUNDLE) : b.toName h p = b.name p := if_pos hp

theorem Bundle.toName_fix {b : Bundle} (h : b.Wf) : ∀ p, MAX_BUNDLE ≤ p → b.toName h p = p := fun _ hp => if_neg (not_lt.2 hp)

theorem Bundle.sim_ofSize {b : Bundle} (h : b.Wf) : BSim (b.toName h) b (Bundle.ofSize b.avail) where
  avail := rfl
  slot i hi := by rw [Bundle.toName_apply h (h.slot_lt i hi), h.name_slot i hi]; rfl
  name p hp := by rw [Bundle.toName_apply h hp]; rfl

/-- The renaming from the cells of `d` to the names of its components. -/
def Inv.ren (hi : Inv P d) : Ren where
  V := d.Ver.toName hi.count.verWf
  G := d.G.toName hi.count.gWf
  W := d.W.toName hi.count.wWf
  fixV := Bundle.toName_fix _
  fixG := Bundle.toName_fix _
  fixW := Bundle.toName_fix _

theorem Relabeled.alike (h : Relabeled d d') (hi : Inv P d) (hγ : d.hasGamma = 0) : Alike BSim hi.ren d d' := by
  have hc := hi.count
  have pV : ∀ v, v ∈ d.Ver.live → hi.ren.V v = d.Ver.name v ∧ d.Ver.name v < d.Ver.avail ∧ d.Ver.slot (d.Ver.name v) = v := fun v hv =>
    ⟨Bundle.toName_apply hc.verWf (Bundle.live_lt hv), Bundle.name_lt' hv, Bundle.slot_name' hc.verWf hv⟩
  have pG : ∀ v, v ∈ d.G.live → hi.ren.G v = d.G.name v ∧ d.G.name v < d.G.avail ∧ d.G.slot (d.G.name v) = v := fun v hv =>
    ⟨Bundle.toName_apply hc.gWf (Bundle.live_lt hv), Bundle.name_lt' hv, Bundle.slot_name' hc.gWf hv⟩
  have pW : ∀ v, v ∈ d.W.live → hi.ren.W v = d.W.name v ∧ d.W.name v < d.W.avail ∧ d.W.slot (d.W.name v) = v := fun v hv =>
    ⟨Bundle.toName_apply hc.wWf (Bundle.live_lt hv), Bundle.name_lt' hv, Bundle.slot_name' hc.wWf hv⟩
  have hne : ∀ {p : Prop}, d.hasGamma ≠ 0 → p := fun q => absurd hγ q
  refine ⟨h.order, h.phase, h.weight, h.sfl, ?_, ?_, ?_, ?_, ?_, ?_, ?_, ?_, ?_, ?_, ?_, ?_, ?_, h.gHash, h.wHash, ?_, ?_, ?_, ?_, ?_, ?_, ?_, ?_,
    h.exist, ?_, ?_, h.wk, h.dSpin, h.wwt, h.measG, ?_, ?_, h.hasGamma, hne, hne, hne⟩
  · rw [h.g]; exact Bundle.sim_ofSize hc.gWf
  · rw [h.w]; exact Bundle.sim_ofSize hc.wWf
  · rw [h.ver]; exact Bundle.sim_ofSize hc.verWf
  · intro v hv e
    rw [(pV v hv).1, h.vG _ (pV v hv).2.1, (pV v hv).2.2, (pG _ (hi.topo.vG_mem v hv e)).1]
  · intro v hv
    rw [(pV v hv).1, h.vW _ (pV v hv).2.1, (pV v hv).2.2, (pW _ (hi.topo.vW_mem v hv)).1]
  · intro v hv
    rw [(pV v hv).1, h.vDir _ (pV v hv).2.1, (pV v hv).2.2]
  · intro g hg e
    rw [(pG g hg).1, h.gV _ (pG g hg).2.1, (pG g hg).2.2, (pV _ (hi.topo.gV_mem g hg e)).1]
  · intro g hg e
    rw [(pW g hg).1, h.wV _ (pW g hg).2.1, (pW g hg).2.2, (pV _ (hi.topo.wV_mem g hg e)).1]
  · intro v hv
    rw [(pV v hv).1, h.r _ (pV v hv).2.1, (pV v hv).2.2]
  · intro v hv
    rw [(pV v hv).1, h.tau _ (pV v hv).2.1, (pV v hv).2.2]
  · intro v hv
    rw [(pV v hv).1, h.spin _ (pV v hv).2.1, (pV v hv).2.2]
  · intro v hv
    rw [(pG v hv).1, h.gK _ (pG v hv).2.1, (pG v hv).2.2]
  · intro v hv
    rw [(pW v hv).1, h.wK _ (pW v hv).2.1, (pW v hv).2.2]
  · intro v hv
    rw [(pG v hv).1, h.gMeas _ (pG v hv).2.1, (pG v hv).2.2]
  · intro v hv
    rw [(pG v hv).1, h.gGam _ (pG v hv).2.1, (pG v hv).2.2]
  · intro v hv
    rw [(pW v hv).1, h.wMeas _ (pW v hv).2.1, (pW v hv).2.2]
  · intro v hv
    rw [(pW v hv).1, h.wWorm _ (pW v hv).2.1, (pW v hv).2.2]
  · intro v hv
    rw [(pW v hv).1, h.wDelta _ (pW v hv).2.1, (pW v hv).2.2]
  · intro v hv
    rw [(pW v hv).1, h.wGam _ (pW v hv).2.1, (pW v hv).2.2]
  · intro v hv
    rw [(pG v hv).1, h.gWt _ (pG v hv).2.1, (pG v hv).2.2]
  · intro v hv
    rw [(pW v hv).1, h.wWt _ (pW v hv).2.1, (pW v hv).2.2]
  · intro he
    rw [h.ira he, (pV _ (hi.worm.ira_mem he)).1]
  · intro he
    rw [h.masha he, (pV _ (hi.worm.masha_mem he)).1]
  · intro hm
    rw [h.gMeasure hm, (pG _ (hi.meas.g_mem hm)).1]
  · intro hm
    rw [h.wMeasure hm, (pW _ (hi.meas.w_mem hm)).1]

/-- No renaming. -/
def Ren.id : Ren := ⟨Equiv.refl _, Equiv.refl _, Equiv.refl _, fun _ _ => rfl, fun _ _ => rfl, fun _ _ => rfl⟩

theorem Handle.act_id (h : Handle) : h.act Ren.id = h := by cases h <;> rfl

theorem Alike.refl (d : Diag Q F) : Alike BSim Ren.id d d := by
  constructor <;> first
    | rfl
    | exact ⟨rfl, fun _ _ => rfl, fun _ _ => rfl⟩
    | (intro _; exact (Handle.act_id _).symm)
    | (intros; rfl)

end Feyn
