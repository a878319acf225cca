import Verif.Proof.Stale
import Verif.Proof.SimMain
import Verif.Props.MainLoop

/-!
# Processes that differ only in memory layout and in statistics that are never read

`EnvSim A ρ e e'`: both processes have the same parameters, diagrams of the same content and the same statistics. `A` says
whether the temperatures for which the histograms were allocated agree, which matters only when the temperature is changed.
-/

set_option linter.unusedSectionVars false
set_option linter.unusedSimpArgs false

namespace Feyn

/-! ### Diagrams -/

section
variable {Q F : Type} [Field Q] [LinearOrder Q] [IsStrictOrderedRing Q] [Field F] {ρ : Ren} {P : Params Q F} {d d' : Diag Q F}

/-- Worm pointers that point to the same vertices, or nowhere. -/
def StaleSim (ρ : Ren) (d d' : Diag Q F) : Prop :=
  (MAX_BUNDLE ≤ d'.worm.ira ∨ d'.worm.ira = ρ.V d.worm.ira) ∧ (MAX_BUNDLE ≤ d'.worm.masha ∨ d'.worm.masha = ρ.V d.worm.masha)

theorem BSim.mem {π : Equiv.Perm ℕ} (hπ : ∀ p, MAX_BUNDLE ≤ p → π p = p) {b b' : Bundle} (h : BSim π b b') (p : ℕ) :
    π p ∈ b'.live ↔ p ∈ b.live := by
  rw [Bundle.mem_live, Bundle.mem_live, perm_lt hπ, h.avail]
  constructor
  · rintro ⟨h1, h2⟩; rw [h.name p h1] at h2; exact ⟨h1, h2⟩
  · rintro ⟨h1, h2⟩; rw [h.name p h1]; exact ⟨h1, h2⟩

theorem BSim.live {π : Equiv.Perm ℕ} (hπ : ∀ p, MAX_BUNDLE ≤ p → π p = p) {b b' : Bundle} (h : BSim π b b') :
    b'.live = b.live.map π.toEmbedding := by
  ext p
  rw [Finset.mem_map_equiv, ← h.mem hπ, Equiv.apply_symm_apply]

theorem BSim.all {π : Equiv.Perm ℕ} (hπ : ∀ p, MAX_BUNDLE ≤ p → π p = p) {b b' : Bundle} (h : BSim π b b') {p : ℕ → Prop} :
    (∀ x ∈ b'.live, p x) ↔ ∀ x ∈ b.live, p (π x) := by
  constructor
  · intro q x hx
    exact q _ ((h.mem hπ x).2 hx)
  · intro q x hx
    have := q (π.symm x) ((h.mem hπ _).1 (by rw [Equiv.apply_symm_apply]; exact hx))
    rwa [Equiv.apply_symm_apply] at this

theorem StaleSim.noStale (s : StaleSim ρ d d') (S : Alike BSim ρ d d') (h : NoStaleWorm d) : NoStaleWorm d' := by
  unfold NoStaleWorm
  rw [S.exist]
  rcases h with h | ⟨h1, h2⟩
  · exact .inl h
  · refine .inr ⟨?_, ?_⟩
    · rcases s.1 with q | q
      · intro k; have := Bundle.live_lt k; omega
      · rw [q, S.bV.mem ρ.fixV]; exact h1
    · rcases s.2 with q | q
      · intro k; have := Bundle.live_lt k; omega
      · rw [q, S.bV.mem ρ.fixV]; exact h2

theorem hopOne_pointers {c e : Chain Q F} {o : Words} (h : hopOne c o = .ok e) (hx : e.d.worm.exist = false) :
    e.d.worm.ira = c.d.worm.ira ∧ e.d.worm.masha = c.d.worm.masha := by
  unfold hopOne at h
  cases hs : selectOp c.P (urn Q (o 0)) with
  | none => rw [hs] at h; cases h; exact ⟨rfl, rfl⟩
  | some op =>
    rw [hs] at h
    obtain ⟨out, k, h⟩ := bind_eq_ok h
    cases h
    exact runOp_pointers _ _ _ _ out k hx

theorem hop_stale {a b : Chain Q F} : ∀ (os : List Words) {c c' e e' : Chain Q F}, c.P.Wf → Inv c.P c.d → ChainSim ρ a b c c' →
    StaleSim ρ c.d c'.d → hop c os = .ok e → hop c' os = .ok e' → StaleSim ρ e.d e'.d := by
  intro os
  induction os with
  | nil => intro c c' e e' _ _ _ st h1 h2; cases h1; cases h2; exact st
  | cons o os ih =>
    intro c c' e e' hP hi S st h1 h2
    unfold hop at h1 h2
    obtain ⟨x, k1, h1⟩ := bind_eq_ok h1
    obtain ⟨x', k2, h2⟩ := bind_eq_ok h2
    obtain ⟨hp, hi1⟩ := hopOne_inv hP hi k1
    have T := hopOne_sim hP hi S o
    rw [k1, k2] at T
    have T : ChainSim ρ a b x x' := T
    refine ih (hp ▸ hP) hi1 T ?_ h1 h2
    cases hx : x.d.worm.exist with
    | true => exact ⟨.inr (T.diag.ira hx), .inr (T.diag.masha hx)⟩
    | false =>
      obtain ⟨q1, q2⟩ := hopOne_pointers k1 hx
      obtain ⟨q3, q4⟩ := hopOne_pointers k2 (by rw [T.diag.exist]; exact hx)
      rw [StaleSim, q1, q2, q3, q4]
      exact st

theorem Alike.gNew (S : Alike BSim ρ d d') {P₁ : Params Q F} (hi : Inv P₁ d) {g : ℕ} (hg : g ∈ d.G.live) :
    gNew P d' (ρ.G g) = gNew P d g := by
  have m1 := hi.topo.gV_mem g hg IN
  have m2 := hi.topo.gV_mem g hg OUT
  unfold Feyn.gNew
  rw [S.gV g hg, S.gV g hg, S.r _ m1, S.r _ m2, S.tau _ m1, S.tau _ m2, S.spin _ m1, S.spin _ m2, S.gMeas g hg]
  apply Feyn.gW0_ext

theorem Alike.wNew (S : Alike BSim ρ d d') {P₁ : Params Q F} (hi : Inv P₁ d) (hi' : Inv P₁ d') (hs : NoStaleWorm d) (hs' : NoStaleWorm d')
    {w : ℕ} (hw : w ∈ d.W.live) : wFlag d' (ρ.W w) = wFlag d w ∧ wNew P d' (ρ.W w) = wNew P d w := by
  have m1 := hi.topo.wV_mem w hw IN
  have m2 := hi.topo.wV_mem w hw OUT
  have e : wFlag d' (ρ.W w) = wFlag d w := by
    rw [wFlag_eq hi hs w hw, wFlag_eq hi' hs' _ ((S.bW.mem ρ.fixW w).2 hw), S.wWorm w hw]
  refine ⟨e, ?_⟩
  unfold Feyn.wNew
  rw [e, S.wV w hw, S.wV w hw, S.r _ m1, S.r _ m2, S.tau _ m1, S.tau _ m2, S.spin _ m1, S.spin _ m2, S.wMeas w hw, S.wDelta w hw]
  apply Feyn.wW0_ext

theorem Alike.fixed (S : Alike BSim ρ d d') {P₁ : Params Q F} (hi : Inv P₁ d) (hi' : Inv P₁ d') (hs : NoStaleWorm d)
    (hs' : NoStaleWorm d') : Alike BSim ρ (fixed P d) (fixed P d') := by
  have g1 : ∀ g ∈ d.G.live, ρ.G g ∈ d'.G.live := fun g hg => (S.bG.mem ρ.fixG g).2 hg
  have w1 : ∀ w ∈ d.W.live, ρ.W w ∈ d'.W.live := fun w hw => (S.bW.mem ρ.fixW w).2 hw
  have wt : (Feyn.fixed P d').weight = (Feyn.fixed P d).weight := by
    unfold Feyn.fixed
    simp only [S.sfl, S.bW.avail]
    congr 1
    rw [S.bG.live ρ.fixG, S.bW.live ρ.fixW, Finset.prod_map, Finset.prod_map]
    exact congrArg₂ _ (Finset.prod_congr rfl fun g hg => S.gNew hi hg) (Finset.prod_congr rfl fun w hw => (S.wNew hi hi' hs hs' hw).2)
  exact {
    order := S.bW.avail
    phase := congrArg P.ph wt
    weight := wt
    sfl := S.sfl
    bG := S.bG
    bW := S.bW
    bV := S.bV
    vG := S.vG
    vW := S.vW
    vDir := S.vDir
    gV := S.gV
    wV := S.wV
    r := S.r
    tau := S.tau
    spin := S.spin
    gK := S.gK
    wK := S.wK
    gHash := S.gHash
    wHash := S.wHash
    gMeas := S.gMeas
    gGam := fun g hg => (if_pos (g1 g hg)).trans (if_pos hg).symm
    wMeas := S.wMeas
    wWorm := fun w hw => (if_pos (w1 w hw)).trans ((S.wNew (P := P) hi hi' hs hs' hw).1.trans (if_pos hw).symm)
    wDelta := S.wDelta
    wGam := fun w hw => (if_pos (w1 w hw)).trans (if_pos hw).symm
    gWt := fun g hg => (if_pos (g1 g hg)).trans ((S.gNew hi hg).trans (if_pos hg).symm)
    wWt := fun w hw => (if_pos (w1 w hw)).trans ((S.wNew hi hi' hs hs' hw).2.trans (if_pos hw).symm)
    exist := S.exist
    ira := S.ira
    masha := S.masha
    k := S.k
    dSpin := S.dSpin
    wormWt := fun _ => rfl
    measG := S.measG
    gMeasure := S.gMeasure
    wMeasure := S.wMeasure
    hasGamma := S.hasGamma
    ext := S.ext
    vin := S.vin
    vout := S.vout }

theorem Alike.nonzero (S : Alike BSim ρ d d') (h : LinesNonzero d) : LinesNonzero d' :=
  ⟨(S.bG.all ρ.fixG).2 fun g hg => by rw [S.gWt g hg]; exact h.1 g hg, (S.bW.all ρ.fixW).2 fun w hw => by rw [S.wWt w hw]; exact h.2 w hw⟩

theorem Alike.check {near : F → F → Bool} (hn : ∀ a, near a a = true) (S : Alike BSim ρ d d') (hi : Inv P d) (hi' : Inv P d') :
    checkDiagram near P d' = checkDiagram near P d := by
  have et : EqualTimes d' ↔ EqualTimes d := by
    unfold EqualTimes
    rw [S.bW.all ρ.fixW]
    refine forall₂_congr fun w hw => ?_
    have m1 := hi.topo.wV_mem w hw IN
    have m2 := hi.topo.wV_mem w hw OUT
    rw [S.wDelta w hw, S.wV w hw, S.wV w hw, S.tau _ m1, S.tau _ m2]
  by_cases k : d.order ≠ 0 ∧ ¬ EqualTimes d
  · rw [check_inv_abort hi k.1 k.2, check_inv_abort hi' (by rw [S.order]; exact k.1) (by rw [et]; exact k.2)]
  · obtain ⟨b, e, hb⟩ := check_inv hn hi fun ho => by by_contra q; exact k ⟨ho, q⟩
    obtain ⟨b', e', hb'⟩ := check_inv hn hi' fun ho => by
      by_contra q
      rw [et] at q
      rw [S.order] at ho
      exact k ⟨ho, q⟩
    rw [e, e']
    congr 1
    rw [Bool.eq_iff_iff, hb, hb', S.order, S.bG.all ρ.fixG, S.bW.all ρ.fixW]
    refine or_congr_right (and_congr (forall₂_congr fun g hg => by rw [S.gWt g hg]) (forall₂_congr fun w hw => by rw [S.wWt w hw]))

end

/-! ### Statistics -/

section
variable {Q F : Type} [Field Q] [LinearOrder Q] [IsStrictOrderedRing Q] [FloorRing Q] [Field F] [Algebra Q F]

/-- Estimators with the same sum and norm. The history is never written in a simulation. -/
def EstSim (e e' : Est Q Q) : Prop := e'.accu = e.accu ∧ e'.norm = e.norm

/-- Histograms of the same size with the same content. -/
structure HistoSim (A : Prop) (h h' : Histo Q F) : Prop where
  beta : A → h'.beta = h.beta
  norm : h'.norm = h.norm
  normAccu : h'.normAccu = h.normAccu
  cells : h'.cells = h.cells
  perOrder : h'.perOrder = h.perOrder
  data : ∀ i, 0 ≤ i → i < h.cells → h'.data i = h.data i

/-- Histograms with the same addressing. -/
structure MeasuredSim (A : Prop) (s s' : Measured Q F) : Prop where
  map : s'.map = s.map
  est : HistoSim A s.est s'.est

/-- Monitors with the same statistics. The three-point functions count only if they are simulated. -/
structure MonSim (A : Prop) (g : Bool) (m m' : Monitor Q F) : Prop where
  wormE : List.Forall₂ EstSim m.wormE m'.wormE
  phyE : List.Forall₂ EstSim m.phyE m'.phyE
  sigmaE : EstSim m.sigmaE m'.sigmaE
  polarE : EstSim m.polarE m'.polarE
  gammaGE : g = true → EstSim m.gammaGE m'.gammaGE
  gammaWE : g = true → EstSim m.gammaWE m'.gammaWE
  sigma : MeasuredSim A m.sigma m'.sigma
  polar : MeasuredSim A m.polar m'.polar
  gammaG : g = true → m'.gammaG = m.gammaG
  gammaW : g = true → m'.gammaW = m.gammaW

variable {A : Prop} {g : Bool} {m m' : Monitor Q F} {P : Params Q F} {d : Diag Q F}

theorem EstSim.measure {e e' : Est Q Q} (h : EstSim e e') (t : Q) : EstSim (e.measure t) (e'.measure t) := by
  unfold EstSim Est.measure
  rw [h.1, h.2]
  exact ⟨rfl, rfl⟩

theorem EstSim.squeeze {e e' : Est Q Q} (h : EstSim e e') (f : Q) : Res.Rel EstSim (e.squeeze f) (e'.squeeze f) := by
  unfold Est.squeeze
  refine .ite Iff.rfl (fun _ => ?_) fun _ => trivial
  unfold Res.Rel EstSim
  rw [h.1, h.2]
  exact ⟨rfl, rfl⟩

theorem forall₂_get {l l' : List (Est Q Q)} (h : List.Forall₂ EstSim l l') (i : ℕ) :
    (l[i]? = none ∧ l'[i]? = none) ∨ ∃ e e', l[i]? = some e ∧ l'[i]? = some e' ∧ EstSim e e' := by
  induction h generalizing i with
  | nil => exact .inl ⟨rfl, rfl⟩
  | cons a _ ih =>
    cases i with
    | zero => exact .inr ⟨_, _, rfl, rfl, a⟩
    | succ i => simpa using ih i

theorem forall₂_set {l l' : List (Est Q Q)} (h : List.Forall₂ EstSim l l') (i : ℕ) {e e' : Est Q Q} (he : EstSim e e') :
    List.Forall₂ EstSim (l.set i e) (l'.set i e') := by
  induction h generalizing i with
  | nil => exact .nil
  | cons a b ih =>
    cases i with
    | zero => exact .cons he b
    | succ i => exact .cons a (ih i)

theorem bumpAt_sim {l l' : List (Est Q Q)} (h : List.Forall₂ EstSim l l') (i : ℕ) :
    Res.Rel (List.Forall₂ EstSim) (bumpAt l i) (bumpAt l' i) := by
  unfold bumpAt
  rcases forall₂_get h i with ⟨a, b⟩ | ⟨e, e', a, b, c⟩
  · rw [a, b]; trivial
  · rw [a, b]; exact forall₂_set h i (c.measure 1)

theorem squeezeAll_sim {l l' : List (Est Q Q)} (h : List.Forall₂ EstSim l l') (f : Q) :
    Res.Rel (List.Forall₂ EstSim) (squeezeAll l f) (squeezeAll l' f) := by
  induction h with
  | nil => exact List.Forall₂.nil
  | cons a b ih =>
    unfold squeezeAll
    refine (a.squeeze f).bind fun x x' _ hx => ih.bind fun y y' _ hy => ?_
    exact List.Forall₂.cons hx hy

theorem HistoSim.measure {h h' : Histo Q F} (s : HistoSim A h h') (i o : ℤ) (w : F) :
    Res.Rel (HistoSim A) (h.measure i o w) (h'.measure i o w) := by
  unfold Histo.measure
  simp only [s.perOrder, s.cells]
  refine .ite Iff.rfl (fun _ => ?_) fun _ => trivial
  exact ⟨s.beta, s.norm, s.normAccu, rfl, rfl, fun j h1 h2 => by simp only [s.data j h1 h2]⟩

theorem HistoSim.squeeze {h h' : Histo Q F} (s : HistoSim A h h') (f : Q) : Res.Rel (HistoSim A) (h.squeeze f) (h'.squeeze f) := by
  unfold Histo.squeeze
  refine .ite Iff.rfl (fun _ => ?_) fun _ => trivial
  refine { s with normAccu := ?_, data := fun j h1 h2 => ?_ }
  · simp only [s.normAccu]
  · simp only [s.data j h1 h2, s.cells]

theorem MeasuredSim.sigmaMeasure {s s' : Measured Q F} (h : MeasuredSim A s s') (r r' : Site) (t t' : Q) (a a' : Spin) (o : ℕ) (w : F) :
    Res.Rel (MeasuredSim A) (s.sigmaMeasure r r' t t' a a' o w) (s'.sigmaMeasure r r' t t' a a' o w) := by
  unfold Measured.sigmaMeasure
  rw [h.map]
  refine .same _ fun i _ => ?_
  exact (h.est.measure _ _ _).bind fun x x' _ hx => ⟨rfl, hx⟩

theorem MeasuredSim.polarMeasure {s s' : Measured Q F} (h : MeasuredSim A s s') (r r' : Site) (t t' : Q) (a a' : Dir → Spin) (o : ℕ) (w : F) :
    Res.Rel (MeasuredSim A) (s.polarMeasure r r' t t' a a' o w) (s'.polarMeasure r r' t t' a a' o w) := by
  unfold Measured.polarMeasure
  rw [h.map]
  refine .same _ fun i _ => ?_
  exact (h.est.measure _ _ _).bind fun x x' _ hx => ⟨rfl, hx⟩

theorem MonSim.count (s : MonSim A P.runGamma3 m m') (d : Diag Q F) :
    Res.Rel (MonSim A P.runGamma3) (m.count P d) (m'.count P d) := by
  unfold Monitor.count
  refine .ite Iff.rfl (fun _ => ?_) fun _ => ?_
  · refine (bumpAt_sim s.wormE _).bind fun x x' _ hx => ?_
    refine .ite Iff.rfl (fun _ => .ite Iff.rfl (fun _ => ?_) fun _ => ?_) fun _ => ?_
    · exact { s with wormE := hx, sigmaE := s.sigmaE.measure 1 }
    · exact { s with wormE := hx, polarE := s.polarE.measure 1 }
    · exact { s with wormE := hx }
  · refine (bumpAt_sim s.phyE _).bind fun x x' _ hx => ?_
    refine .ite Iff.rfl (fun _ => .ite Iff.rfl (fun _ => .ite Iff.rfl (fun _ => ?_) fun _ => ?_) fun _ =>
      .ite Iff.rfl (fun _ => ?_) fun _ => ?_) fun _ => ?_
    · exact { s with phyE := hx, sigmaE := s.sigmaE.measure 1 }
    · exact { s with phyE := hx, gammaGE := fun q => (s.gammaGE q).measure 1 }
    · exact { s with phyE := hx, polarE := s.polarE.measure 1 }
    · exact { s with phyE := hx, gammaWE := fun q => (s.gammaWE q).measure 1 }
    · exact { s with phyE := hx }

theorem HistoSim.measureNorm {h h' : Histo Q F} (s : HistoSim A h h') (w : Q) : HistoSim A (h.measureNorm w) (h'.measureNorm w) := by
  refine { s with normAccu := ?_ }
  unfold Histo.measureNorm
  simp only [s.normAccu]

theorem HistoSim.anneal {h h' : Histo Q F} (s : HistoSim A h h') (hA : A) (b : Q) : HistoSim A (h.anneal b) (h'.anneal b) := by
  refine { s with normAccu := ?_ }
  unfold Histo.anneal
  simp only [s.normAccu, s.beta hA]

theorem MonSim.anneal (s : MonSim A g m m') (hA : A) (b : Q) : MonSim A g (m.annealWeights b) (m'.annealWeights b) := by
  refine { s with sigma := ⟨?_, s.sigma.est.anneal hA b⟩, polar := ⟨?_, s.polar.est.anneal hA b⟩ }
  · unfold Monitor.annealWeights Measured.reset
    simp only [s.sigma.map]
  · unfold Monitor.annealWeights Measured.reset
    simp only [s.polar.map]

theorem MonSim.norm (s : MonSim A P.runGamma3 m m') (d : Diag Q F) (x : Q) :
    Res.Rel (MonSim A P.runGamma3) (m.norm P d x) (m'.norm P d x) := by
  unfold Monitor.norm
  refine .ite Iff.rfl (fun _ => .ite Iff.rfl (fun _ => .ite Iff.rfl (fun c => ?_) fun _ => ?_) fun _ =>
    .ite Iff.rfl (fun c => ?_) fun _ => ?_) fun _ => s
  · simp only [s.gammaG c]
    refine .same _ fun y _ => ?_
    exact { s with sigma := ⟨s.sigma.map, s.sigma.est.measureNorm x⟩, gammaG := fun _ => rfl }
  · exact { s with sigma := ⟨s.sigma.map, s.sigma.est.measureNorm x⟩ }
  · simp only [s.gammaW c]
    refine .same _ fun y _ => ?_
    exact { s with polar := ⟨s.polar.map, s.polar.est.measureNorm x⟩, gammaW := fun _ => rfl }
  · exact { s with polar := ⟨s.polar.map, s.polar.est.measureNorm x⟩ }

theorem MonSim.squeeze (s : MonSim A P.runGamma3 m m') (f : Q) :
    Res.Rel (MonSim A P.runGamma3) (m.squeeze P f) (m'.squeeze P f) := by
  unfold Monitor.squeeze
  refine (s.sigma.est.squeeze f).bind fun x1 y1 _ h1 => (s.polar.est.squeeze f).bind fun x2 y2 _ h2 => ?_
  refine (squeezeAll_sim s.wormE f).bind fun x3 y3 _ h3 => (squeezeAll_sim s.phyE f).bind fun x4 y4 _ h4 => ?_
  refine (s.sigmaE.squeeze f).bind fun x5 y5 _ h5 => (s.polarE.squeeze f).bind fun x6 y6 _ h6 => ?_
  refine .ite Iff.rfl (fun c => ?_) fun c => ?_
  · simp only [s.gammaG c, s.gammaW c]
    cases m.gammaG with
    | none => trivial
    | some a =>
      cases m.gammaW with
      | none => trivial
      | some b =>
        refine .same _ fun a' _ => .same _ fun b' _ => ((s.gammaGE c).squeeze f).bind fun x7 y7 _ h7 =>
          ((s.gammaWE c).squeeze f).bind fun x8 y8 _ h8 => ?_
        exact ⟨h3, h4, h5, h6, fun _ => h7, fun _ => h8, ⟨s.sigma.map, h1⟩, ⟨s.polar.map, h2⟩, fun _ => rfl, fun _ => rfl⟩
  · exact ⟨h3, h4, h5, h6, s.gammaGE, s.gammaWE, ⟨s.sigma.map, h1⟩, ⟨s.polar.map, h2⟩, s.gammaG, s.gammaW⟩

theorem valueAt_sim {l l' : List (Est Q Q)} (h : List.Forall₂ EstSim l l') (i : ℕ) : valueAt l' i = valueAt l i := by
  unfold valueAt
  rcases forall₂_get h i with ⟨a, b⟩ | ⟨e, e', a, b, c⟩
  · rw [a, b]
  · rw [a, b]; exact congrArg _ c.1

theorem sumValues_sim {l l' : List (Est Q Q)} (h : List.Forall₂ EstSim l l') (is : List ℕ) : sumValues l' is = sumValues l is := by
  induction is with
  | nil => rfl
  | cons i is ih => unfold sumValues; rw [valueAt_sim h, ih]

theorem anySmall_sim {l l' : List (Est Q Q)} (h : List.Forall₂ EstSim l l') (is : List ℕ) : anySmall l' is = anySmall l is := by
  induction is with
  | nil => rfl
  | cons i is ih =>
    unfold anySmall
    rcases forall₂_get h i with ⟨a, b⟩ | ⟨e, e', a, b, c⟩
    · rw [a, b]
    · rw [a, b]; simp only [c.2, ih]

theorem MonSim.printReweight (s : MonSim A g m m') : printReweight P m' = printReweight P m := by
  unfold Feyn.printReweight
  rw [valueAt_sim s.wormE, valueAt_sim s.phyE, sumValues_sim s.wormE, sumValues_sim s.phyE]

theorem MonSim.adjustLoop (s : MonSim A g m m') (t : List Q) (w : Q) (x : AdjLoop Q) (is : List ℕ) :
    adjustLoop m' t w x is = adjustLoop m t w x is := by
  induction is generalizing x with
  | nil => rfl
  | cons i is ih =>
    have : adjustStep m' t w x i = adjustStep m t w x i := by
      unfold adjustStep
      rw [valueAt_sim s.wormE, valueAt_sim s.phyE]
    unfold Feyn.adjustLoop
    rw [this]
    simp only [ih]

theorem MonSim.adjust (s : MonSim A P.runGamma3 m m') (t : List Q) : adjust P t m' = adjust P t m := by
  have e : tooFew P m' = tooFew P m := by
    unfold tooFew
    rw [anySmall_sim s.phyE, s.polarE.1, s.polarE.2, s.sigmaE.1]
    cases hg : P.runGamma3 with
    | false => rfl
    | true => rw [(s.gammaGE hg).1, (s.gammaGE hg).2, (s.gammaWE hg).1, (s.gammaWE hg).2]
  unfold Feyn.adjust
  rw [e, valueAt_sim s.wormE, valueAt_sim s.phyE, s.polarE.1, s.sigmaE.1]
  simp only [s.adjustLoop]
  cases hg : P.runGamma3 with
  | false => rfl
  | true => simp only [(s.gammaGE hg).1, (s.gammaWE hg).1]

variable [StarRing F]

theorem MonSim.data (s : MonSim A P.runGamma3 m m') (d : Diag Q F) (x : Q) :
    Res.Rel (MonSim A P.runGamma3) (m.data P d x) (m'.data P d x) := by
  unfold Monitor.data
  refine .ite Iff.rfl (fun _ => .ite Iff.rfl (fun _ => .ite Iff.rfl (fun _ => ?_) fun _ => s) fun _ =>
    .ite Iff.rfl (fun _ => ?_) fun _ => s) fun c => ?_
  · refine .same _ fun _ _ => .same _ fun _ _ => .same _ fun _ _ => ?_
    exact (s.sigma.sigmaMeasure _ _ _ _ _ _ _ _).bind fun y y' _ h => { s with sigma := h }
  · refine .same _ fun _ _ => .same _ fun _ _ => .same _ fun _ _ => ?_
    exact (s.polar.polarMeasure _ _ _ _ _ _ _ _).bind fun y y' _ h => { s with polar := h }
  · have c : P.runGamma3 = true := by
      cases h : P.runGamma3 with
      | true => rfl
      | false => rw [h] at c; simp at c
    refine .ite Iff.rfl (fun _ => .ite Iff.rfl (fun _ => ?_) fun _ => s) fun _ => .ite Iff.rfl (fun _ => ?_) fun _ => s
    · refine .same _ fun _ _ => .same _ fun _ _ => .same _ fun _ _ => ?_
      rw [s.gammaG c]
      cases m.gammaG with
      | none => trivial
      | some t => exact .same _ fun y _ => { s with gammaG := fun _ => rfl }
    · refine .same _ fun _ _ => .same _ fun _ _ => .same _ fun _ _ => ?_
      rw [s.gammaW c]
      cases m.gammaW with
      | none => trivial
      | some t => exact .same _ fun y _ => { s with gammaW := fun _ => rfl }

theorem MonSim.measure (s : MonSim A P.runGamma3 m m') (d : Diag Q F) :
    Res.Rel (MonSim A P.runGamma3) (m.measure P d) (m'.measure P d) := by
  unfold Monitor.measure
  cases P.orderRW[d.order]? with
  | none => trivial
  | some r =>
  refine (s.count d).bind fun y y' _ h => ?_
  exact .ite Iff.rfl (fun _ => h) fun _ => (h.norm d _).bind fun z z' _ hz => hz.data d _

end

/-! ### Processes -/

section
variable {Q F : Type} [Field Q] [LinearOrder Q] [IsStrictOrderedRing Q] [FloorRing Q] [Field F] [StarRing F] [Algebra Q F]

/-- Processes with the same parameters, content of the diagram and statistics. -/
structure EnvSim (A : Prop) (ρ : Ren) (a b : Chain Q F) (e e' : Env Q F) : Prop where
  version : e'.version = e.version
  temp : e'.temp = e.temp
  timeRatio : e'.timeRatio = e.timeRatio
  par : e'.chain.P = e.chain.P
  chain : ChainSim ρ a b e.chain e'.chain
  stale : StaleSim ρ e.chain.d e'.chain.d
  mon : MonSim A e.chain.P.runGamma3 e.mon e'.mon

/-- In addition both are consistent. -/
structure EnvSimOk (A : Prop) (ρ : Ren) (a b : Chain Q F) (P₀ : Params Q F) (e e' : Env Q F) : Prop where
  sim : EnvSim A ρ a b e e'
  ok : e.Ok P₀
  ok' : e'.Ok P₀

variable {A : Prop} {ρ : Ren} {a b : Chain Q F} {P₀ : Params Q F} {e e' : Env Q F} {near : F → F → Bool}

/-- New reweighting factors on both sides. -/
theorem EnvSimOk.reweight (s : EnvSimOk A ρ a b P₀ e e') {P' : Params Q F} (h : SameModel e.chain.P P') :
    EnvSimOk A ρ a b P₀ { e with chain := { e.chain with P := P' } } { e' with chain := { e'.chain with P := P' } } := by
  refine ⟨⟨s.sim.version, s.sim.temp, s.sim.timeRatio, rfl, ?_, s.sim.stale, ?_⟩, SameModel.ok s.ok h, SameModel.ok s.ok' (by rw [s.sim.par]; exact h)⟩
  · exact { s.sim.chain with tab := .refl _ }
  · have := s.sim.mon
    rw [show P'.runGamma3 = e.chain.P.runGamma3 from h.runGamma3]
    exact this

theorem printReweight_model {P P' : Params Q F} {m : Monitor Q F} (h : printReweight P m = .ok P') : SameModel P P' := by
  unfold printReweight at h
  obtain ⟨_, -, h⟩ := bind_eq_ok h
  obtain ⟨_, -, h⟩ := bind_eq_ok h
  obtain ⟨_, -, h⟩ := bind_eq_ok h
  obtain ⟨_, -, h⟩ := bind_eq_ok h
  split_ifs at h
  cases h
  exact ⟨_, _, _, _, _, rfl, rfl⟩

theorem EnvSimOk.print (hn : ∀ a, near a a = true) (hP : P₀.Wf) (hS : StartOk P₀) (s : EnvSimOk A ρ a b P₀ e e') (x : Bool) :
    Res.Rel (EnvSimOk A ρ a b P₀) (e.onPrint near x) (e'.onPrint near x) := by
  unfold Env.onPrint
  refine .ite Iff.rfl (fun _ => ?_) fun _ => s
  unfold Env.print
  have hi := (s.ok.reach.inv hP hS).2
  have hi' := (s.ok'.reach.inv hP hS).2
  rw [s.sim.par] at hi'
  rw [s.sim.par, s.sim.chain.diag.check hn hi hi', s.sim.mon.printReweight]
  refine .same _ fun g _ => .ite Iff.rfl (fun _ => ?_) fun _ => trivial
  exact .same _ fun P' h => s.reweight (printReweight_model h)

theorem EnvSimOk.adjust (hP : P₀.Wf) (hS : StartOk P₀) (s : EnvSimOk A ρ a b P₀ e e') (x : Bool) :
    Res.Rel (EnvSimOk A ρ a b P₀) (e.onReweight x) (e'.onReweight x) := by
  obtain ⟨P', h1, h2, -⟩ := reweight_ok hP hS s.ok x
  have : e'.onReweight x = .ok { e' with chain := { e'.chain with P := P' } } := by
    have hadj : Feyn.adjust e'.chain.P e'.timeRatio e'.mon = Feyn.adjust e.chain.P e.timeRatio e.mon := by
      rw [s.sim.par, s.sim.timeRatio, s.sim.mon.adjust]
    unfold Env.onReweight at h1 ⊢
    rw [hadj]
    cases x with
    | false =>
      have := congrArg (fun e : Res (Env Q F) => match e with | .ok e => e.chain.P | _ => P₀) h1
      have : e.chain.P = P' := this
      rw [← this, ← s.sim.par]
      rfl
    | true =>
      rw [if_pos rfl] at h1 ⊢
      obtain ⟨r, k, h1⟩ := bind_eq_ok h1
      rw [k, Res.ok_bind]
      have := congrArg (fun e : Res (Env Q F) => match e with | .ok e => e.chain.P | _ => P₀) h1
      have : r.2 = P' := this
      rw [this]
  rw [h1, this]
  exact s.reweight h2

/-- A message that is followed. -/
theorem EnvSimOk.apply (hn : ∀ a, near a a = true) (hP : P₀.Wf) (hS : StartOk P₀) (s : EnvSimOk A ρ a b P₀ e e') (hA : A)
    {fs : MsgFiles Q F} {m : Message Q} {w : WeightFile Q F} (hr : e.chain.P.runGamma3 = false) (hb : e.chain.P.beta ≤ m.beta)
    (hsq : 1 ≤ m.squeeze) (hns : NoStaleWorm e.chain.d)
    (hl : ∀ P' d', readGW fs w { e.chain.P with beta := m.beta } = .ok P' → fixDiagram P' e.chain.d = .ok d' → LinesNonzero d') :
    Res.Rel (EnvSimOk A ρ a b P₀) (applyMessage near e fs m w) (applyMessage near e' fs m w) := by
  obtain ⟨hw, hi⟩ := s.ok.reach.inv hP hS
  have hi' := (s.ok'.reach.inv hP hS).2
  rw [s.sim.par] at hi'
  have S := s.sim.chain.diag
  have hγ := s.ok.reach.noGamma hP hS hr
  have hγ' : e'.chain.d.hasGamma = 0 := by rw [S.hasGamma]; exact hγ
  have hns' := s.sim.stale.noStale S hns
  have hl' : ∀ P' d', readGW fs w { e'.chain.P with beta := m.beta } = .ok P' → fixDiagram P' e'.chain.d = .ok d' → LinesNonzero d' := by
    intro P' d' h1 h2
    rw [hi'.fix_eq hγ'] at h2
    cases h2
    rw [s.sim.par] at h1
    exact (S.fixed hi hi' hns hns').nonzero (hl P' _ h1 (hi.fix_eq hγ))
  have f1 := applyMessage_fair hn hP hS s.ok hr hb hsq hns hl
  have f2 := applyMessage_fair hn hP hS s.ok' (by rw [s.sim.par]; exact hr) (by rw [s.sim.par]; exact hb) hsq hns' hl'
  have key : Res.Rel (EnvSim A ρ a b) (applyMessage near e fs m w) (applyMessage near e' fs m w) := by
    unfold applyMessage
    simp only
    rw [s.sim.par]
    refine .same _ fun P' hrd => ?_
    obtain ⟨ss, hbeta⟩ := readGW_ok hrd
    have hrun : P'.runGamma3 = false := by rw [ss.run]; exact hr
    have hfix := hi.fix_eq (P' := P') hγ
    have hfix' := hi'.fix_eq (P' := P') hγ'
    have hA' : AnnealTo e.chain.P P' := by
      have hbeta' : P'.beta = m.beta := hbeta
      have hb0 : 0 < m.beta := lt_of_lt_of_le hw.beta_pos hb
      refine ⟨⟨by rw [hbeta']; exact hb0, by rw [ss.maxOrd]; exact hw.one_le, by rw [ss.maxOrd]; exact hw.lt_max,
        by rw [ss.maxOrd, ss.order]; exact hw.rw_len, by rw [ss.lx]; exact hw.lx_pos, by rw [ss.ly]; exact hw.ly_pos,
        by rw [ss.nsub]; exact hw.nsub_pos, ?_⟩, ss.lx, ss.ly, ss.nsub, by rw [hbeta']; exact hb, le_of_eq ss.maxOrd.symm⟩
      have := hw.norm_ne
      unfold normWeight at this ⊢
      rw [ss.lx, ss.ly, ss.nsub]
      exact this
    have T := S.fixed (P := P') hi hi' hns hns'
    have hz := hl P' _ hrd hfix
    have j := fixed_inv hi hA' hγ hns hz
    have j' := fixed_inv hi' hA' hγ' hns' (T.nonzero hz)
    have hc : ¬ (P'.runGamma3 = true) := by rw [hrun]; simp
    rw [if_neg hc, if_neg hc, Res.ok_bind, Res.ok_bind, hfix, hfix', Res.ok_bind, Res.ok_bind]
    have hm : MonSim A P'.runGamma3 (e.mon.annealWeights P'.beta) (e'.mon.annealWeights P'.beta) := by
      rw [ss.run]
      exact s.sim.mon.anneal hA _
    refine (hm.squeeze m.squeeze).bind fun y y' _ hy => ?_
    rw [T.check hn j j']
    refine .same _ fun g _ => .ite Iff.rfl (fun _ => ?_) fun _ => trivial
    exact ⟨rfl, rfl, s.sim.timeRatio, rfl, { s.sim.chain with tab := .refl _, diag := T }, s.sim.stale, hy⟩
  rcases f1 with ⟨x, k1, o1, -⟩ | k1
  · rw [k1] at key ⊢
    obtain ⟨x', k2, hx⟩ := key.of_ok
    rcases f2 with ⟨x'', k3, o2, -⟩ | k3
    · rw [k2] at k3
      cases k3
      rw [k2]
      exact ⟨hx, o1, o2⟩
    · rw [k2] at k3; cases k3
  · rw [k1] at key ⊢
    cases hx : applyMessage near e' fs m w with
    | abort => trivial
    | ok y => rw [hx] at key; exact key.elim
    | ub => rw [hx] at key; exact key.elim

theorem EnvSimOk.message (hn : ∀ a, near a a = true) (hP : P₀.Wf) (hS : StartOk P₀) (s : EnvSimOk A ρ a b P₀ e e') {t : Tick Q F}
    (ht : t.Fair e) (hA : A ∨ t.Quiet e.version) :
    Res.Rel (fun x x' => EnvSimOk A ρ a b P₀ x x' ∧ (t.Quiet e.version → x.version = e.version))
      (e.onMessage near t.message t.files) (e'.onMessage near t.message t.files) := by
  by_cases q : t.Quiet e.version
  · have hl : t.message = true → Listening e := fun hm => (ht hm).1
    have hl' : t.message = true → Listening e' := fun hm => by
      unfold Listening
      rw [s.sim.par, s.sim.chain.diag.hasGamma]
      exact hl hm
    rw [quiet_ok hl q, quiet_ok hl' (by rw [s.sim.version]; exact q)]
    exact ⟨s, fun _ => rfl⟩
  have hA : A := hA.resolve_right q
  have hm : t.message = true := by
    by_contra c
    exact q fun k => absurd k c
  obtain ⟨hl, k | ⟨m, w, q1, q2, q3, q4, q5, q6, q7⟩⟩ := ht hm
  · exact absurd k q
  have hl' : Listening e' := by
    unfold Listening
    rw [s.sim.par, s.sim.chain.diag.hasGamma]
    exact hl
  unfold Env.onMessage
  rw [hm, if_pos rfl, if_pos rfl, listen_of hl, listen_of hl', q1, loadMessage_full, Res.ok_bind, Res.ok_bind]
  simp only [s.sim.version]
  by_cases hv : e.version ≥ m.version
  · rw [if_pos hv, if_pos hv]; exact ⟨s, fun _ => rfl⟩
  · rw [if_neg hv, if_neg hv, q2]
    simp only
    have := s.apply hn hP hS hA q3 q4 q5 q6 q7 (near := near)
    cases h1 : applyMessage near e t.files m w with
    | ok x =>
      rw [h1] at this
      obtain ⟨x', h2, h3⟩ := this.of_ok
      rw [h2]
      exact ⟨h3, fun k => absurd k q⟩
    | abort =>
      rw [h1] at this
      cases h2 : applyMessage near e' t.files m w with
      | abort => trivial
      | ok y => rw [h2] at this; exact this.elim
      | ub => rw [h2] at this; exact this.elim
    | ub =>
      rw [h1] at this
      cases h2 : applyMessage near e' t.files m w with
      | abort => rw [h2] at this; exact this.elim
      | ok y => rw [h2] at this; exact this.elim
      | ub => trivial

theorem EnvSimOk.sweep (hP : P₀.Wf) (hS : StartOk P₀) (s : EnvSimOk A ρ a b P₀ e e') (ws : List Words) :
    ∃ x x', e.sweep ws = .ok x ∧ e'.sweep ws = .ok x' ∧ EnvSimOk A ρ a b P₀ x x' ∧ x.version = e.version := by
  obtain ⟨hw, hi⟩ := s.ok.reach.inv hP hS
  obtain ⟨c, mon, k1, hr, rec, k2, o⟩ := sweep_ok hP hS s.ok ws
  obtain ⟨c', mon', k1', hr', rec', k2', o'⟩ := sweep_ok hP hS s.ok' ws
  obtain ⟨x, x', h1, h2, T, hw', hi1⟩ := hop_sim ws _ _ hw hi s.sim.chain
  rw [k1] at h1
  cases h1
  rw [k1'] at h2
  cases h2
  have st := hop_stale ws hw hi s.sim.chain s.sim.stale k1 k1'
  have p1 := hop_P k1
  have p2 := hop_P k1'
  refine ⟨_, _, k2, k2', ⟨⟨s.sim.version, s.sim.temp, s.sim.timeRatio, by simp only; rw [p1, p2, s.sim.par], T, st, ?_⟩, o, o'⟩, rfl⟩
  have m1 : e.mon.measure c.P c.d = .ok mon := by
    unfold Env.sweep at k2
    rw [k1, Res.ok_bind] at k2
    obtain ⟨y, j1, j2⟩ := bind_eq_ok k2
    split_ifs at j2
    cases j2
    exact j1
  have m2 : e'.mon.measure c'.P c'.d = .ok mon' := by
    unfold Env.sweep at k2'
    rw [k1', Res.ok_bind] at k2'
    obtain ⟨y, j1, j2⟩ := bind_eq_ok k2'
    split_ifs at j2
    cases j2
    exact j1
  have hm : MonSim A c.P.runGamma3 e.mon e'.mon := by rw [p1]; exact s.sim.mon
  have := hm.measure c.d
  rw [T.diag.measure T.tab hi1] at m2
  rw [m1, m2] at this
  exact this

theorem EnvSimOk.step (hn : ∀ a, near a a = true) (hP : P₀.Wf) (hS : StartOk P₀) (s : EnvSimOk A ρ a b P₀ e e') {t : Tick Q F} (n : ℕ)
    (ht : ∀ e1 e2, e.sweep t.words = .ok e1 → e1.onPrint near t.print = .ok e2 → t.Fair e2) (hA : A ∨ t.Quiet e.version) :
    Res.Rel (fun x x' => EnvSimOk A ρ a b P₀ x x' ∧ (t.Quiet e.version → x.version = e.version))
      (mainStep near e n t) (mainStep near e' n t) := by
  obtain ⟨x, x', h1, h2, sx, v1⟩ := s.sweep hP hS t.words
  unfold mainStep
  rw [h1, h2, Res.ok_bind, Res.ok_bind]
  refine .ite Iff.rfl (fun _ => ?_) fun _ => ⟨sx, fun _ => v1⟩
  have vp : ∀ y, x.onPrint near t.print = .ok y → y.version = x.version := by
    intro y hy
    unfold Env.onPrint at hy
    split_ifs at hy
    · unfold Env.print at hy
      obtain ⟨g, -, hy⟩ := bind_eq_ok hy
      split_ifs at hy
      obtain ⟨p, -, hy⟩ := bind_eq_ok hy
      cases hy
      rfl
    · cases hy; rfl
  refine (sx.print hn hP hS t.print).bind fun y y' ky sy => ?_
  have vy := vp y ky
  rw [save_ok hP hS sy.ok, save_ok hP hS sy.ok', Res.ok_bind, Res.ok_bind]
  have vv : y.version = e.version := vy.trans v1
  refine (sy.message hn hP hS (ht x y h1 ky) (by rw [vv]; exact hA)).bind fun z z' kz sz => ?_
  have := sz.1.adjust hP hS t.reweight
  obtain ⟨P', r1, -, -⟩ := reweight_ok hP hS sz.1.ok t.reweight
  rw [r1] at this ⊢
  obtain ⟨u, r2, su⟩ := this.of_ok
  rw [r2]
  exact ⟨su, fun q => (sz.2 (by rw [vv]; exact q)).trans vv⟩

theorem EnvSimOk.loop (hn : ∀ a, near a a = true) (hP : P₀.Wf) (hS : StartOk P₀) (ts : List (Tick Q F)) : ∀ {e e' : Env Q F} (n : ℕ),
    EnvSimOk A ρ a b P₀ e e' → FairRun near e n ts → (A ∨ ∀ t ∈ ts, t.Quiet e.version) →
    Res.Rel (EnvSimOk A ρ a b P₀) (mainLoop near e n ts) (mainLoop near e' n ts) := by
  induction ts with
  | nil => intro e e' n s _ _; exact s
  | cons t ts ih =>
    intro e e' n s hf hA
    unfold mainLoop
    refine (s.step hn hP hS (n + 1) hf.1 (hA.imp id fun q => q t (by simp))).bind fun x x' kx sx => ?_
    refine ih (n + 1) sx.1 (hf.2 x kx) (hA.imp id fun q t' ht' => ?_)
    rw [sx.2 (q t (by simp))]
    exact q t' (by simp [ht'])

end
end Feyn
