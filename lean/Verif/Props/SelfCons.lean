import Verif.Proof.SelfCons
import Verif.Props.Dyson
import Verif.Props.Loop
import Verif.Props.Vertex
import Verif.Props.Isolated
import Verif.Props.Bonds
import Verif.Props.First

/-!
# Symmetries of self-consistent calculations (C77)
-/

namespace Feyn

set_option linter.unusedSectionVars false

section
variable {F : Type} [Field F] [StarRing F] [CharZero F] {d : ℕ} {L : Fin d → ℕ} {N m : ℕ} [∀ i, NeZero (L i)] [NeZero N]

theorem bins_pos (N : ℕ) [NeZero N] : 0 < N := Nat.pos_of_ne_zero (NeZero.ne N)

theorem axes_pos (L : Fin d → ℕ) [∀ i, NeZero (L i)] : ∀ i, 0 < L i := fun i => Nat.pos_of_ne_zero (NeZero.ne (L i))

/-- A weight in the domains `R`, `T` has the function that it represents as its data. -/
theorem shows_RT {M : Type} [AddCommGroup M] [Module F M] {κ : Kind} {E : Phase F} (hb : κ.beta ≠ 0) {w : Plain L N M} {f : Grid L N M} (h : w.Shows κ E f) :
    (w.fft κ E [.R, .T]).data = f ∧ (w.fft κ E [.R, .T]).Shows κ E f := by
  obtain ⟨h1, h2, h3⟩ := C63_transform κ E (bins_pos N) (axes_pos L) hb w f h [.R, .T]
  refine ⟨?_, h1⟩
  unfold Plain.Shows at h1
  rw [h1, h2, h3]
  simp [after, Kind.view]

theorem shows_R {M : Type} [AddCommGroup M] [Module F M] {κ : Kind} {E : Phase F} (hb : κ.beta ≠ 0) (ht : κ.hasTau = false) {w : Plain L 1 M} {f : Grid L 1 M} (h : w.Shows κ E f) :
    (w.fft κ E [.R]).data = f ∧ (w.fft κ E [.R]).Shows κ E f := by
  obtain ⟨h1, h2, h3⟩ := C63_transform κ E one_pos (axes_pos L) hb w f h [.R]
  refine ⟨?_, h1⟩
  unfold Plain.Shows at h1
  rw [h1, h2]
  simp [after, Kind.view, ht]

/-- All functions in a record have a property. -/
def Ledger.All {A : Type} (V : A → Prop) (b : Ledger ℚ A) : Prop := V b.start ∧ (∀ e ∈ b.entries, V e.2) ∧ ∀ x, b.last = some x → V x.2

theorem Ledger.All.merge {A : Type} {V : A → Prop} {b : Ledger ℚ A} (h : b.All V) (r : ℚ) {f : A} (hf : V f) : (b.merge (some r) f).All V := by
  refine ⟨h.1, ?_, ?_⟩
  · intro e he
    simp only [Ledger.merge, List.mem_append, List.mem_singleton] at he
    rcases he with he | rfl
    · exact h.2.1 e he
    · exact hf
  · intro x hx
    simp only [Ledger.merge, Option.some.injEq] at hx
    subst hx
    exact hf

theorem Ledger.All.rollBack {A : Type} {V : A → Prop} {b : Ledger ℚ A} (h : b.All V) : b.rollBack.All V := by
  unfold Ledger.rollBack
  split
  · rename_i r f e
    refine ⟨h.1, ?_, h.2.2⟩
    intro x hx
    simp only [List.mem_append, List.mem_singleton] at hx
    rcases hx with hx | rfl
    · exact h.2.1 x hx
    · exact h.2.2 _ e
  · exact h

/-- What such a record stands for has the property, if the property survives real linear combinations. -/
theorem Ledger.All.value {M : Type} [AddCommGroup M] [Module ℚ M] {V : Grid L N M → Prop} (hz : V fun _ _ => 0) (ha : ∀ f g, V f → V g → V fun r n => f r n + g r n)
    (hs : ∀ (q : ℚ) f, V f → V fun r n => q • f r n) {b : Ledger ℚ (Grid L N M)} (h : b.All V) : V b.value := by
  have key : ∀ l : List (ℚ × Grid L N M), (∀ e ∈ l, V e.2) → V fun r n => (l.map fun e => e.1 • e.2 r n).sum := by
    intro l
    induction l with
    | nil => intro _; simpa using hz
    | cons e l ih =>
      intro k
      simp only [List.map_cons, List.sum_cons]
      exact ha _ _ (hs _ _ (k e List.mem_cons_self)) (ih fun x hx => k x (List.mem_cons_of_mem _ hx))
  unfold Ledger.value
  split
  · exact hs _ _ (key _ h.2.1)
  · split
    · exact h.1
    · rename_i e
      exact h.2.2 _ e

theorem SymG.zero : SymG (fun _ _ => 0 : Grid L N (Matrix (GIdx m) (GIdx m) F)) := ⟨by simp, by simp, by simp⟩

theorem SymG.add {f g : Grid L N (Matrix (GIdx m) (GIdx m) F)} (hf : SymG f) (hg : SymG g) : SymG fun r n => f r n + g r n :=
  ⟨fun r t p q c => by rw [Matrix.add_apply, hf.loc r t p q c, hg.loc r t p q c, add_zero], fun r t s s' a => by rw [Matrix.add_apply, Matrix.add_apply, hf.spin r t s s', hg.spin r t s s'],
    fun r t p q => by rw [Matrix.add_apply, Matrix.add_apply, star_add, hf.hole, hg.hole]⟩

theorem SymG.smul (c : ℚ) {f : Grid L N (Matrix (GIdx m) (GIdx m) F)} (hf : SymG f) : SymG fun r n => c • f r n :=
  ⟨fun r t p q k => by rw [Matrix.smul_apply, hf.loc r t p q k, smul_zero], fun r t s s' a => by rw [Matrix.smul_apply, Matrix.smul_apply, hf.spin r t s s'],
    fun r t p q => by rw [Matrix.smul_apply, Matrix.smul_apply, hf.hole, Rat.smul_def, Rat.smul_def, star_mul', star_ratCast]⟩

theorem SymP.zero : SymP (fun _ _ => 0 : Grid L N (Matrix (WIdx m) (WIdx m) F)) := ⟨by simp, by simp, by simp, by simp⟩

theorem SymP.add {f g : Grid L N (Matrix (WIdx m) (WIdx m) F)} (hf : SymP f) (hg : SymP g) : SymP fun r n => f r n + g r n :=
  ⟨fun r t p q a b c => by rw [Matrix.add_apply, hf.loc r t p q a b c, hg.loc r t p q a b c, add_zero],
    fun r t p q a => by rw [Matrix.add_apply, Matrix.add_apply, hf.spin r t p q, hg.spin r t p q],
    fun r t p q => by rw [Matrix.add_apply, star_add, hf.real, hg.real], fun r t p q => by rw [Matrix.add_apply, Matrix.add_apply, hf.even, hg.even]⟩

theorem SymP.smul (c : ℚ) {f : Grid L N (Matrix (WIdx m) (WIdx m) F)} (hf : SymP f) : SymP fun r n => c • f r n :=
  ⟨fun r t p q a b k => by rw [Matrix.smul_apply, hf.loc r t p q a b k, smul_zero], fun r t p q a => by rw [Matrix.smul_apply, Matrix.smul_apply, hf.spin r t p q],
    fun r t p q => by rw [Matrix.smul_apply, Rat.smul_def, star_mul', star_ratCast, hf.real], fun r t p q => by rw [Matrix.smul_apply, Matrix.smul_apply, hf.even]⟩

theorem SymW.zero : SymW (fun _ _ => 0 : Grid L N (Matrix (WIdx m) (WIdx m) F)) := ⟨fun r t p q a b => by simp [exchange], by simp, by simp⟩

/-- What holds in every version. -/
structure Scf.Inv (κ : ScfKinds) (E : Phase F) (s : Scf ℚ F L N m) : Prop where
  G : ∃ g, s.G.Shows κ.g E g ∧ SymG g
  W : ∃ w, s.W.Shows κ.w E w ∧ SymW w
  delta : ∃ b, Tracked κ.delta E false s.delta b ∧ s.delta.time = false ∧ b.All fun f => f = fun _ _ => 0
  sigma : ∃ b, Tracked κ.g E true s.sigma b ∧ b.All SymG
  polar : ∃ b, Tracked κ.w E false s.polar b ∧ s.polar.time = false ∧ b.All SymP

theorem zero_value {b : Ledger ℚ (Grid L 1 (Matrix (GIdx m) (GIdx m) F))} (h : b.All fun f => f = fun _ _ => 0) : b.value = fun _ _ => 0 :=
  h.value (V := fun f => f = fun _ _ => 0) rfl (fun f g hf hg => by subst hf hg; funext r n; exact add_zero _) (fun q f hf => by subst hf; funext r n; exact smul_zero _)

theorem Scf.Inv.symmetric {κ : ScfKinds} (hκ : κ.Good) {E : Phase F} {s : Scf ℚ F L N m} (h : s.Inv κ E) : s.Symmetric κ E := by
  refine ⟨h.G, h.W, ?_, ?_, ?_⟩
  · obtain ⟨b, k, _, a⟩ := h.delta
    have := C65_ledger κ.delta E one_pos (axes_pos L) hκ.delta.1 false _ _ k
    rwa [zero_value a] at this
  · obtain ⟨b, k, a⟩ := h.sigma
    exact ⟨_, C65_ledger κ.g E (bins_pos N) (axes_pos L) hκ.g.1 true _ _ k, a.value SymG.zero (fun f g => SymG.add) fun q f => SymG.smul q⟩
  · obtain ⟨b, k, _, a⟩ := h.polar
    exact ⟨_, C65_ledger κ.w E (bins_pos N) (axes_pos L) hκ.w.1 false _ _ k, a.value SymP.zero (fun f g => SymP.add) fun q f => SymP.smul q⟩

/-- A result of `G_Dyson` has the symmetries. -/
theorem gDyson_sym {κ κ0 : Kind} {E : Phase F} (hg : κ.beta ≠ 0 ∧ κ.hasTau = true ∧ κ.sym = false) (hd : κ0.beta ≠ 0 ∧ κ0.hasTau = false) {solve : Solver (GIdx m) F} (hs : solve.Good)
    {touches : Grid L N (Matrix (GIdx m) (GIdx m) F) → Bool} {G0 S : Plain L N (Matrix (GIdx m) (GIdx m) F)} {D : Plain L 1 (Matrix (GIdx m) (GIdx m) F)}
    {g0 s : Grid L N (Matrix (GIdx m) (GIdx m) F)} (h0 : G0.Shows κ E g0) (k0 : SymG g0) (h1 : S.Shows κ E s) (k1 : SymG s) (h2 : D.Shows κ0 E fun _ _ => 0)
    {G : Plain L N (Matrix (GIdx m) (GIdx m) F)} (e : gDyson κ κ0 E solve touches G0 D S = .done G) : ∃ g, G.Shows κ E g ∧ SymG g := by
  have h := (C64_G κ κ0 E hg.1 hg.2.1 hg.2.2 hd.1 hd.2 solve hs touches G0 S D g0 s (fun _ _ => 0) h0 h1 h2).1 G e
  obtain ⟨g, hs, hu⟩ := C63_faithful κ E (bins_pos N) (axes_pos L) hg.1 G
  exact ⟨g, hs, symG_dyson (star_ratCast _) k0 k1 ((h g).1 hs) fun g' k => hu g' ((h g').2 k)⟩

theorem wDyson_sym {κ κ0 : Kind} {E : Phase F} (hg : κ.beta ≠ 0 ∧ κ.hasTau = true ∧ κ.sym = true) (hd : κ0.beta ≠ 0 ∧ κ0.hasTau = false) {solve : Solver (WIdx m) F} (hs : solve.Good)
    {touches : Grid L N (Matrix (WIdx m) (WIdx m) F) → Bool} {W0 : Plain L 1 (Matrix (WIdx m) (WIdx m) F)} {P : Plain L N (Matrix (WIdx m) (WIdx m) F)}
    {J : Grid L 1 (Matrix (WIdx m) (WIdx m) F)} {p : Grid L N (Matrix (WIdx m) (WIdx m) F)} (h0 : W0.Shows κ0 E J) (k0 : SymJ J) (h1 : P.Shows κ E p) (k1 : SymP p)
    {W X : Plain L N (Matrix (WIdx m) (WIdx m) F)} (e : wDyson κ κ0 E solve touches W0 P = .done (W, X)) : ∃ w, W.Shows κ E w ∧ SymW w := by
  have h := ((C64_W κ κ0 E hg.1 hg.2.1 hg.2.2 hd.1 hd.2 solve hs touches W0 P J p h0 h1).1 W X e).1
  obtain ⟨w, hs, hu⟩ := C63_faithful κ E (bins_pos N) (axes_pos L) hg.1 W
  exact ⟨w, hs, symW_dyson (star_ratCast _) k0 k1 ((h w).1 hs) fun w' k => hu w' ((h w').2 k)⟩

theorem merge_time {M : Type} [AddCommGroup M] [Module F M] [Module ℚ M] (κ : Kind) (E : Phase F) (w : Merged ℚ L N M) (r : Option ℚ) (f : Plain L N M) : (w.merge κ E r f).time = w.time := rfl

theorem fft_R_time {M : Type} [AddCommGroup M] [Module F M] [Module ℚ M] (κ : Kind) (E : Phase F) (w : Merged ℚ L N M) :
    (w.fft κ E [.K]).time = w.time ∧ (w.fft κ E [.R]).time = w.time ∧ (w.fft κ E [.K, .W]).time = true ∧ (w.fft κ E [.R, .T]).time = false := by
  refine ⟨?_, ?_, ?_, ?_⟩ <;> rw [Merged.fft_time] <;> cases w.time <;> simp [after]

/-- The weights are what the version has put into them. -/
theorem Scf.Inv.version {κ : ScfKinds} (hκ : κ.Good) {T : ScfTools F L N m} (hG : T.solveG.Good) (hW : T.solveW.Good) {s s' : Scf ℚ F L N m} (h : s.Inv κ T.E) (v : ℕ)
    {G0 : Plain L N (Matrix (GIdx m) (GIdx m) F)} {W0 : Plain L 1 (Matrix (WIdx m) (WIdx m) F)} (h0 : ∃ g, G0.Shows κ.g T.E g ∧ SymG g) (h1 : ∃ J, W0.Shows κ.w0 T.E J ∧ SymJ J) {e : Ending}
    (hr : s.version κ T v G0 W0 = some (s', e)) (he : e ≠ .w) : s'.Inv κ T.E := by
  obtain ⟨g, hg, sg⟩ := h.G
  obtain ⟨w, hw, sw⟩ := h.W
  obtain ⟨bd, td, ed, ad⟩ := h.delta
  obtain ⟨bs, ts, as⟩ := h.sigma
  obtain ⟨bp, tp, ep, ap⟩ := h.polar
  obtain ⟨g0, hg0, sg0⟩ := h0
  obtain ⟨J, hJ, sJ⟩ := h1
  obtain ⟨dG, hG1⟩ := shows_RT hκ.g.1 hg
  obtain ⟨dW, hW1⟩ := shows_RT hκ.w.1 hw
  obtain ⟨dJ, hJ1⟩ := shows_R hκ.w0.1 hκ.w0.2 hJ
  have plain : ∀ {N' : ℕ} {M : Type} [AddCommGroup M] [Module F M] (κ' : Kind) (f : Grid L N' M), (Plain.mk f false false).Shows κ' T.E f := fun κ' f => (κ'.view_false T.E f).symm
  unfold Scf.version at hr
  simp only [dG, dW, dJ, deltaFirst_zero sg sJ] at hr
  have td1 := (td.merge (some (ratio v)) ed (plain κ.delta fun _ _ => (0 : Matrix (GIdx m) (GIdx m) F))).fft [.K]
  have ad1 := ad.merge (ratio v) (f := fun _ _ => (0 : Matrix (GIdx m) (GIdx m) F)) rfl
  have ts1 := ts.fft [.K, .W]
  have sd1 := C65_ledger κ.delta T.E one_pos (axes_pos L) hκ.delta.1 false _ _ td1
  rw [zero_value ad1] at sd1
  have ss1 := C65_ledger κ.g T.E (bins_pos N) (axes_pos L) hκ.g.1 true _ _ ts1
  have es1 : (s.sigma.fft κ.g T.E [.K, .W]).time = true := (fft_R_time _ _ _).2.2.1
  have vs : ∀ {b : Ledger ℚ (Grid L N (Matrix (GIdx m) (GIdx m) F))}, b.All SymG → SymG b.value := fun a => a.value SymG.zero (fun f g => SymG.add) fun q f => SymG.smul q
  have vp : ∀ {b : Ledger ℚ (Grid L N (Matrix (WIdx m) (WIdx m) F))}, b.All SymP → SymP b.value := fun a => a.value SymP.zero (fun f g => SymP.add) fun q f => SymP.smul q
  have ed1 : ((s.delta.merge κ.delta T.E (some (ratio v)) ⟨fun _ _ => (0 : Matrix (GIdx m) (GIdx m) F), false, false⟩).fft κ.delta T.E [.K]).time = false := by
    rw [(fft_R_time _ _ _).1, merge_time, ed]
  split at hr
  · cases hr
  · simp only [Option.some.injEq, Prod.mk.injEq] at hr
    obtain ⟨rfl, rfl⟩ := hr
    exact ⟨⟨g, hG1, sg⟩, ⟨w, hw, sw⟩, ⟨_, td1.rollBack ed1, (Merged.rollBack_time _ _ _).trans ed1, ad1.rollBack⟩, ⟨_, ts1.rollBack es1, as.rollBack⟩,
      ⟨_, tp.rollBack ep, (Merged.rollBack_time _ _ _).trans ep, ap.rollBack⟩⟩
  · rename_i G e1
    obtain ⟨g1, hg1, sg1⟩ := gDyson_sym hκ.g hκ.delta hG hg0 sg0 ss1 (vs as) sd1 e1
    obtain ⟨dG1, hG1'⟩ := shows_RT hκ.g.1 hg1
    simp only [dG1] at hr
    have ts2 := (ts1.merge (some (ratio v)) es1 (plain κ.g (sigmaFirst g1 w))).fft [.K, .W]
    have as2 := as.merge (ratio v) (sigmaFirst_sym sg1 sw)
    have td2 := td1.fft [.K]
    have sd2 := C65_ledger κ.delta T.E one_pos (axes_pos L) hκ.delta.1 false _ _ td2
    rw [zero_value ad1] at sd2
    have ss2 := C65_ledger κ.g T.E (bins_pos N) (axes_pos L) hκ.g.1 true _ _ ts2
    have es2 : (((s.sigma.fft κ.g T.E [.K, .W]).merge κ.g T.E (some (ratio v)) ⟨sigmaFirst g1 w, false, false⟩).fft κ.g T.E [.K, .W]).time = true := (fft_R_time _ _ _).2.2.1
    have ed2 := (fft_R_time κ.delta T.E ((s.delta.merge κ.delta T.E (some (ratio v)) ⟨fun _ _ => (0 : Matrix (GIdx m) (GIdx m) F), false, false⟩).fft κ.delta T.E [.K])).1.trans ed1
    split at hr
    · cases hr
    · simp only [Option.some.injEq, Prod.mk.injEq] at hr
      obtain ⟨rfl, rfl⟩ := hr
      exact ⟨⟨g, hG1, sg⟩, ⟨w, hW1, sw⟩, ⟨_, td2.rollBack ed2, (Merged.rollBack_time _ _ _).trans ed2, ad1.rollBack⟩, ⟨_, ts2.rollBack es2, as2.rollBack⟩,
        ⟨_, tp.rollBack ep, (Merged.rollBack_time _ _ _).trans ep, ap.rollBack⟩⟩
    · rename_i G' e2
      obtain ⟨g2, hg2, sg2⟩ := gDyson_sym hκ.g hκ.delta hG hg0 sg0 ss2 (vs as2) sd2 e2
      obtain ⟨dG2, hG2'⟩ := shows_RT hκ.g.1 hg2
      simp only [dG2] at hr
      have tp1 := (tp.merge (some (ratio v)) ep (plain κ.w (polarFirst g2))).fft [.K, .W]
      have ap1 := ap.merge (ratio v) (polarFirst_sym sg2)
      have sp1 := C65_ledger κ.w T.E (bins_pos N) (axes_pos L) hκ.w.1 false _ _ tp1
      split at hr
      · cases hr
      · simp only [Option.some.injEq, Prod.mk.injEq] at hr
        exact absurd hr.2.symm he
      · rename_i W X e3
        simp only [Option.some.injEq, Prod.mk.injEq] at hr
        obtain ⟨rfl, rfl⟩ := hr
        obtain ⟨w1, hw1, sw1⟩ := wDyson_sym hκ.w hκ.w0 hW hJ1 sJ sp1 (vp ap1) e3
        exact ⟨⟨g2, hG2', sg2⟩, ⟨w1, (shows_RT hκ.w.1 hw1).2, sw1⟩, ⟨_, td2.fft [.R], (fft_R_time κ.delta _ _).2.1.trans ed2, ad1⟩, ⟨_, ts2.fft [.R, .T], as2⟩,
          ⟨_, tp1.fft [.R, .T], (fft_R_time _ _ _).2.2.2, ap1⟩⟩

/-- **C77**: in a calculation without Monte Carlo data whose functions have the symmetries at the start and whose bare functions have them, they have them after any number of versions, of which
some may fail in `G_Dyson`; there is never an instantaneous self energy. (After a failure in `W_Dyson` see `C65_refuted_domain`.) -/
theorem C77_run_partial {κ : ScfKinds} (hκ : κ.Good) {T : ScfTools F L N m} (hG : T.solveG.Good) (hW : T.solveW.Good) {s s' : Scf ℚ F L N m} (h : s.Symmetric κ T.E) (hf : s.Fresh) (v : ℕ)
    (xs : List (Plain L N (Matrix (GIdx m) (GIdx m) F) × Plain L 1 (Matrix (WIdx m) (WIdx m) F)))
    (hx : ∀ x ∈ xs, (∃ g, x.1.Shows κ.g T.E g ∧ SymG g) ∧ ∃ J, x.2.Shows κ.w0 T.E J ∧ SymJ J) {es : List Ending} (hr : s.run κ T v xs = some (s', es)) (he : Ending.w ∉ es) :
    s'.Symmetric κ T.E := by
  have start : s.Inv κ T.E := by
    have un : ∀ {N' : ℕ} [NeZero N'] {M : Type} [AddCommGroup M] [Module F M] {κ' : Kind} {f g : Grid L N' M}, κ'.beta ≠ 0 → (Plain.mk f false false).Shows κ' T.E g → g = f := by
      intro N' _ M _ _ κ' f g hb k
      obtain ⟨x, _, hu⟩ := C63_faithful κ' T.E (bins_pos N') (axes_pos L) hb (Plain.mk f false false)
      rw [hu g k, hu f (κ'.view_false T.E f).symm]
    obtain ⟨fd, ed⟩ := hf.delta
    obtain ⟨fs, es⟩ := hf.sigma
    obtain ⟨fp, ep⟩ := hf.polar
    have hd := h.delta
    obtain ⟨gs, ks, ss⟩ := h.sigma
    obtain ⟨gp, kp, sp⟩ := h.polar
    refine ⟨h.G, h.W, ⟨⟨fun _ _ => 0, [], none⟩, ?_, by rw [ed], rfl, by simp, by simp⟩, ⟨⟨gs, [], none⟩, ?_, ss, by simp, by simp⟩, ⟨⟨gp, [], none⟩, ?_, by rw [ep], sp, by simp, by simp⟩⟩
    · rw [ed] at hd ⊢
      exact .new hd
    · rw [es] at ks ⊢
      exact .new ks
    · rw [ep] at kp ⊢
      exact .new kp
  refine Scf.Inv.symmetric hκ ?_
  clear h hf
  induction xs generalizing v s es with
  | nil =>
    simp only [Scf.run, Option.some.injEq, Prod.mk.injEq] at hr
    obtain ⟨rfl, rfl⟩ := hr
    exact start
  | cons x xs ih =>
    simp only [Scf.run, Option.bind_eq_bind, Option.bind_eq_some_iff, Option.some.injEq, Prod.mk.injEq] at hr
    obtain ⟨⟨s1, e1⟩, h1, ⟨s2, es2⟩, h2, rfl, rfl⟩ := hr
    simp only [List.mem_cons, not_or] at he
    exact ih (v + 1) (fun y hy => hx y (List.mem_cons_of_mem _ hy)) h2 he.2
      (start.version hκ hG hW (v + 1) (hx x List.mem_cons_self).1 (hx x List.mem_cons_self).2 h1 (Ne.symm he.1))

/-- **C77**: the start of a new calculation. -/
theorem C77_new {κ : ScfKinds} {E : Phase F} {G0 : Plain L N (Matrix (GIdx m) (GIdx m) F)} (h : ∃ g, G0.Shows κ.g E g ∧ SymG g) :
    (Scf.new G0 : Scf ℚ F L N m).Symmetric κ E ∧ (Scf.new G0 : Scf ℚ F L N m).Fresh :=
  ⟨⟨h, ⟨_, (κ.w.view_false E _).symm, SymW.zero⟩, (κ.delta.view_false E _).symm, ⟨_, (κ.g.view_false E _).symm, SymG.zero⟩, ⟨_, (κ.w.view_false E _).symm, SymP.zero⟩⟩,
    ⟨⟨_, rfl⟩, ⟨_, rfl⟩, ⟨_, rfl⟩⟩⟩

/-- The equation of the interaction is singular at a wave vector and frequency where the factor of the exchange matrix is one half. -/
theorem det_exchange (c : F) : (1 - c • (Matrix.of fun p q : WIdx 1 => exchange p.1 (q.1.2, q.1.1) (1 : F))).det ≠ 0 ↔ 2 * c ≠ 1 := by
  set X : Matrix (WIdx 1) (WIdx 1) F := Matrix.of fun p q => exchange p.1 (q.1.2, q.1.1) (1 : F) with hX
  have h2 : X * X = (2 : F) • X := by
    ext p q
    rw [Matrix.mul_apply, Matrix.smul_apply, smul_eq_mul, hX]
    simp only [Matrix.of_apply]
    have := exchange_contract p.1 (q.1.2, q.1.1) (1 : F) 1
    rw [one_mul] at this
    rw [← this, Fintype.sum_prod_type, ← Equiv.sum_comp (Equiv.prodComm Bool Bool)]
    simp
    rfl
  constructor
  · intro h hc
    apply h
    have hc' : c ≠ 0 := by
      rintro rfl
      simp at hc
    have k : (1 - c • X) * X = 0 := by
      rw [sub_mul, one_mul, smul_mul_assoc, h2, smul_smul, mul_comm c 2, hc, one_smul, sub_self]
    by_contra hd
    have : X = 0 := by
      have := congrArg ((1 - c • X)⁻¹ * ·) k
      simpa [← mul_assoc, Matrix.nonsing_inv_mul _ (Ne.isUnit hd)] using this
    have e := congrFun (congrFun this ((true, true), 0)) ((true, true), 0)
    simp [hX, exchange] at e
  · intro hc
    have hc : 1 - 2 * c ≠ 0 := fun h => hc (sub_eq_zero.1 h).symm
    refine Matrix.det_ne_zero_of_right_inverse (B := 1 + (c / (1 - 2 * c)) • X) ?_
    rw [sub_mul, one_mul, smul_mul_assoc, mul_add, mul_one, mul_smul_comm, h2, smul_smul, smul_add, smul_smul]
    have : (c / (1 - 2 * c)) = c + c * (c / (1 - 2 * c) * 2) := by
      have h := div_mul_cancel₀ c hc
      linear_combination h
    nth_rewrite 1 [this]
    rw [add_smul]
    abel

/-- **C77**, the magnetic instability, for one sublattice: `W_Dyson` ends with a singular matrix exactly if, at some wave vector `k` and frequency `m`, twice the product of the exchange constant and
the polarisation is one. `E.cos (m/N)` comes from the discrete times. -/
theorem C77_instability (κ κ0 : Kind) (E : Phase F) (hb : κ.beta ≠ 0) (ht : κ.hasTau = true) (hf : κ.sym = true) (hb0 : κ0.beta ≠ 0) (ht0 : κ0.hasTau = false)
    (solve : Solver (WIdx 1) F) (hs : solve.Good) (touches : Grid L N (Matrix (WIdx 1) (WIdx 1) F) → Bool) {W0 : Plain L 1 (Matrix (WIdx 1) (WIdx 1) F)} {Polar : Plain L N (Matrix (WIdx 1) (WIdx 1) F)}
    {J : Grid L 1 (Matrix (WIdx 1) (WIdx 1) F)} {P : Grid L N (Matrix (WIdx 1) (WIdx 1) F)} (h0 : W0.Shows κ0 E J) (hJ : SymJ J) (h1 : Polar.Shows κ E P) (hP : SymP P) :
    wDyson κ κ0 E solve touches W0 Polar = .crash ↔
      ∃ k, ∃ n : Fin N, 2 * (E.cos (((n : ℕ) : ℚ) / N) * ((κ.beta / N : ℚ) : F) *
        (fftn E (fun r t => J r t ((true, true), 0) ((true, true), 0)) k 0 * matsubara E 0 (fun r t => P r t ((true, true), 0) ((true, true), 0)) 0 n)) = 1 := by
  have hσ : κ.sigma = 0 := by simp [Kind.sigma, hf]
  have e0 := shown_delta κ0 E hb0 ht0 W0 J h0
  have e1 := shown_full κ E hb ht Polar P h1
  have key : ∀ k (n : Fin N), (1 - E.cos (((n : ℕ) : ℚ) / N) • ((κ.beta / N : ℚ) : F) • ((W0.fft κ0 E [.K]).data k 0 * (Polar.fft κ E [.K, .W]).data k n)) =
      1 - (E.cos (((n : ℕ) : ℚ) / N) * ((κ.beta / N : ℚ) : F) *
        (fftn E (fun r t => J r t ((true, true), 0) ((true, true), 0)) k 0 * matsubara E 0 (fun r t => P r t ((true, true), 0) ((true, true), 0)) 0 n)) •
        (Matrix.of fun p q : WIdx 1 => exchange p.1 (q.1.2, q.1.1) (1 : F)) := by
    intro k n
    rw [e0, e1, smul_smul, hσ]
    have a1 : ∀ p q, fftn E J k 0 p q = fftn E (fun r t => J r t ((true, true), 0) ((true, true), 0)) k 0 * exchange p.1 q.1 1 := by
      intro p q
      unfold fftn
      rw [Matrix.sum_apply, Finset.sum_mul]
      refine Finset.sum_congr rfl fun r _ => ?_
      rw [Matrix.smul_apply, hJ.entry r p q, exchange_one]
      obtain ⟨p, a⟩ := p
      obtain ⟨q, b⟩ := q
      rw [Subsingleton.elim a 0, Subsingleton.elim b 0]
      simp only [smul_eq_mul]
      ring
    have a2 : ∀ p q, full E 0 P k n p q = if q.1 = (p.1.2, p.1.1) then matsubara E 0 (fun r t => P r t ((true, true), 0) ((true, true), 0)) 0 n else 0 := by
      intro p q
      obtain ⟨p, a⟩ := p
      obtain ⟨q, b⟩ := q
      obtain rfl := Subsingleton.elim a 0
      obtain rfl := Subsingleton.elim b 0
      unfold full fftn
      rw [Matrix.sum_apply, Finset.sum_eq_single 0 (fun r _ hr => ?_) (fun h => absurd (Finset.mem_univ _) h)]
      · have : angle (0 : ∀ i, Fin (L i)) k = 0 := by simp [angle]
        rw [this, E.zero, one_smul]
        unfold matsubara
        rw [Matrix.sum_apply]
        split_ifs with c
        · refine Finset.sum_congr rfl fun t _ => ?_
          simp only at c
          subst c
          rw [Matrix.smul_apply, hP.spin 0 t p (true, true) 0]
        · refine Finset.sum_eq_zero fun t _ => ?_
          rw [Matrix.smul_apply, hP.loc 0 t p q 0 0 (Or.inr (Or.inr c)), smul_zero]
      · unfold matsubara
        rw [Matrix.smul_apply, Matrix.sum_apply, Finset.sum_eq_zero fun t _ => ?_, smul_zero]
        rw [Matrix.smul_apply, hP.loc r t p q 0 0 (Or.inl hr), smul_zero]
    congr 1
    ext p q
    rw [Matrix.smul_apply, Matrix.smul_apply, Matrix.mul_apply, Matrix.of_apply, smul_eq_mul, smul_eq_mul, mul_assoc (E.cos _ * _)]
    congr 1
    simp only [a1, a2]
    rw [Finset.sum_eq_single ((q.1.2, q.1.1), 0) (fun x _ hx => ?_) (fun h => absurd (Finset.mem_univ _) h)]
    · rw [if_pos rfl]
      ring
    · rw [if_neg, mul_zero]
      intro c
      apply hx
      obtain ⟨x, a⟩ := x
      obtain rfl := Subsingleton.elim a 0
      obtain ⟨q, b⟩ := q
      simp only at c
      rw [c]
  unfold wDyson
  simp only [key]
  have f := (factorised hs (touches := touches) (fun k n => 1 - (E.cos (((n : ℕ) : ℚ) / N) * ((κ.beta / N : ℚ) : F) *
        (fftn E (fun r t => J r t ((true, true), 0) ((true, true), 0)) k 0 * matsubara E 0 (fun r t => P r t ((true, true), 0) ((true, true), 0)) 0 n)) •
        (Matrix.of fun p q : WIdx 1 => exchange p.1 (q.1.2, q.1.1) (1 : F)))).2
  generalize factorise solve touches _ = o at f ⊢
  refine Iff.trans ?_ (f.trans ?_)
  · cases o <;> simp
  simp only [det_exchange]
  push Not
  rfl

end

/-! ### The bare functions -/

/-- The number of a spin in the Python arrays. -/
def spinFin (s : Bool) : Fin 2 := if s then 1 else 0

/-- **C77**: the bare propagator of a spin model has the symmetries if annealing field and external field cancel. -/
theorem C77_bareG {d : ℕ} {L : Fin d → ℕ} [∀ i, NeZero (L i)] {m N : ℕ} {beta : ℝ} (hb : beta ≠ 0) (delta external : Fin m → ℝ) (h : ∀ a, delta a + external a = 0)
    (ι : (∀ i, Fin (L i)) → ℕ) (hι : ∀ r, ι r = 0 ↔ r = 0) :
    SymG (fun (r : ∀ i, Fin (L i)) (t : Fin N) => Matrix.of fun p q : GIdx m => spinBareG false beta N delta external (spinFin p.1) p.2 (spinFin q.1) q.2 (ι r) t) := by
  have hs : ∀ s s', spinFin s = spinFin s' ↔ s = s' := by decide
  have hmu : ∀ a sp, spinMu false beta (delta a + external a) sp = Complex.I * Real.pi / 2 / beta := by
    intro a sp
    rw [h a]
    simp [spinMu, spinMu0]
  refine ⟨fun r t p q hpq => ?_, fun r t s s' a => ?_, fun r t p q => ?_⟩
  · simp only [Matrix.of_apply, spinBareG, hι, hs]
    rw [if_neg]
    rintro ⟨h1, h2, h3⟩
    rcases hpq with c | c
    · exact c h3
    · exact c (Prod.ext h1 h2)
  · simp only [Matrix.of_apply, spinBareG, hι, hmu, true_and]
  · simp only [Matrix.of_apply, spinBareG, hι, hmu]
    split_ifs with c
    · have hN : (N : ℝ) ≠ 0 := by
        have := t.2
        exact_mod_cast (by omega : N ≠ 0)
      have ht : tauGrid beta N (Fin.rev t) = beta - tauGrid beta N t := by
        have := t.2
        unfold tauGrid
        rw [Fin.val_rev, Nat.cast_sub (by omega)]
        push_cast
        field_simp
        ring
      rw [ht]
      generalize tauGrid beta N t = τ
      have hm : (starRingEnd ℂ) (Complex.I * Real.pi / 2 / beta) = -(Complex.I * Real.pi / 2 / beta) := by
        rw [map_div₀, map_div₀, map_mul, Complex.conj_I, Complex.conj_ofReal, Complex.conj_ofReal, map_ofNat, neg_mul, neg_div, neg_div]
      generalize (Complex.I * Real.pi / 2 / beta : ℂ) = μ at hm
      rw [← starRingEnd_apply]
      unfold expKernel
      have e1 : ∀ x : ℝ, (starRingEnd ℂ) (Complex.exp (μ * x)) = Complex.exp (-(μ * x)) := by
        intro x
        rw [← Complex.exp_conj, map_mul, hm, Complex.conj_ofReal, neg_mul]
      rw [map_div₀, map_add, map_one, e1, e1, ← mul_div_mul_left (Complex.exp (-(μ * (τ : ℂ)))) _ (Complex.exp_ne_zero (μ * beta)), mul_add, ← Complex.exp_add, ← Complex.exp_add, mul_one,
        add_neg_cancel, Complex.exp_zero, add_comm (Complex.exp (μ * beta)) 1]
      push_cast
      rw [mul_sub, sub_eq_add_neg]
    · rw [star_zero]

theorem images_real {d : ℕ} (L r : Fin d → ℤ) (J : (Fin d → ℤ) → ℂ) (h : ∀ v, star (J v) = J v) : star (images L r J) = images L r J := by
  unfold images
  rw [← starAddEquiv_apply, AddEquiv.map_finsum]
  refine finsum_congr fun v => ?_
  rw [starAddEquiv_apply]
  split_ifs
  · exact h v
  · exact star_zero _

/-- **C77**: a table of an exchange between different sites with real constants has the symmetries. -/
theorem C77_bareW {d : ℕ} {L : Fin d → ℕ} [∀ i, NeZero (L i)] {m : ℕ} {w : BareW m} {J : Fin m → Fin m → (Fin d → ℤ) → ℂ} (h : IsExchange (fun i => (L i : ℤ)) w J)
    (hr : ∀ a b v, star (J a b v) = J a b v) (h0 : ∀ a v, (∀ i, (L i : ℤ) ∣ v i) → J a a v = 0) :
    SymJ (fun (r : ∀ i, Fin (L i)) (_ : Fin 1) => Matrix.of fun p q : WIdx m => w (pairIndex (spinFin p.1.1) (spinFin p.1.2)) p.2 (pairIndex (spinFin q.1.1) (spinFin q.1.2)) q.2
      (vec2Index (List.ofFn fun i => (L i : ℤ)) (List.ofFn fun i => ((r i : ℕ) : ℤ)))) := by
  have e : ∀ (r : ∀ i, Fin (L i)) s t u v a b, w (pairIndex s t) a (pairIndex u v) b (vec2Index (List.ofFn fun i => (L i : ℤ)) (List.ofFn fun i => ((r i : ℕ) : ℤ))) =
      images (fun i => (L i : ℤ)) (fun i => ((r i : ℕ) : ℤ)) (J a b) * spinDot s t u v := by
    intro r
    exact h (fun i => ((r i : ℕ) : ℤ)) fun i => ⟨by positivity, Int.ofNat_lt.2 (r i).2⟩
  have hd : ∀ p q : Bool × Bool, spinDot (spinFin p.1) (spinFin p.2) (spinFin q.1) (spinFin q.2) = exchange p q (1 / 4) := by
    rintro ⟨_ | _, _ | _⟩ ⟨_ | _, _ | _⟩ <;> rw [(C66_spin _ _ _ _).2] <;> simp [spinFin, exchange] <;> norm_num
  refine ⟨fun r t p q a b => ?_, fun r t p q => ?_, fun t p q a => ?_⟩
  · simp only [Matrix.of_apply, e, hd p q, hd (true, true) (true, true)]
    rw [exchange_mul p q, exchange_mul p q (_ * _), exchange_mul (true, true) (true, true)]
    simp [exchange]
    ring_nf
  · simp only [Matrix.of_apply, e, hd]
    rw [star_mul', images_real _ _ _ (hr _ _)]
    congr 1
    obtain ⟨⟨_ | _, _ | _⟩, a⟩ := p <;> obtain ⟨⟨_ | _, _ | _⟩, b⟩ := q <;> simp [exchange]
  · simp only [Matrix.of_apply, e]
    rw [mul_eq_zero]
    left
    unfold images
    refine (finsum_congr fun v => ?_).trans finsum_zero
    rw [ite_eq_right_iff]
    intro c
    refine h0 a v fun i => ?_
    have := (c i).dvd
    simpa [dvd_neg] using this

/-- **C77**, for the Heisenberg model with exchange constants `J1` and `J2` on the square lattice. -/
theorem C77_square {Lx Ly : ℕ} (hx : 2 ≤ Lx) (hy : 2 ≤ Ly) [∀ i, NeZero (![Lx, Ly] i)] (J1 J2 J3 : ℝ) :
    SymJ (fun (r : ∀ i, Fin (![Lx, Ly] i)) (_ : Fin 1) => Matrix.of fun p q : WIdx 1 =>
      ((square Lx Ly).bareW ![Lx, Ly] J1 J2 J3).1 (pairIndex (spinFin p.1.1) (spinFin p.1.2)) p.2 (pairIndex (spinFin q.1.1) (spinFin q.1.2)) q.2
        (vec2Index (List.ofFn fun i => (![Lx, Ly] i : ℤ)) (List.ofFn fun i => ((r i : ℕ) : ℤ)))) := by
  have hL : (![(Lx : ℤ), (Ly : ℤ)] : Fin 2 → ℤ) = fun i => ((![Lx, Ly] i : ℕ) : ℤ) := by
    funext i
    fin_cases i <;> rfl
  have h := (C66_square (Lx := Lx) (Ly := Ly) (by exact_mod_cast hx) (by exact_mod_cast hy) J1 J2 J3).2
  rw [hL] at h
  rw [hL]
  have nb : ∀ (a : Fin 1) (v : Fin 2 → ℤ), (∀ i, ((![Lx, Ly] i : ℕ) : ℤ) ∣ v i) → v ∉ squareB1 a a ∧ v ∉ squareB2 a a := by
    intro a v hv
    have k0 : (Lx : ℤ) ∣ v 0 := hv 0
    have k1 : (Ly : ℤ) ∣ v 1 := hv 1
    have n0 : ¬ (Lx : ℤ) ∣ 1 := fun c => by have := Int.le_of_dvd one_pos c; omega
    have n1 : ¬ (Ly : ℤ) ∣ 1 := fun c => by have := Int.le_of_dvd one_pos c; omega
    have : a = 0 := Subsingleton.elim _ _
    subst this
    constructor <;> intro c <;> simp [squareB1, squareB2] at c <;> rcases c with rfl | rfl | rfl | rfl <;> simp_all
  refine C77_bareW h (fun a b v => ?_) (fun a v hv => ?_)
  · unfold onBonds
    rw [star_add]
    congr 1 <;> split_ifs <;> simp
  · unfold onBonds
    rw [if_neg, if_neg, add_zero]
    · rw [square_shells.2]
      exact (nb a v hv).2
    · rw [square_shells.1]
      exact (nb a v hv).1

/-! ### The first-order functions are those of Model/First.lean, the three-point functions those of Model/Vertex.lean -/

section
variable {F : Type} [Field F] {d : ℕ} {L : Fin d → ℕ} {N m : ℕ} [∀ i, NeZero (L i)]

theorem pyPolarFirst_off (bins : ℕ) (g : NArr F) (x a y b r t : ℤ) (h : ∀ p ∈ pySpinPairs, ¬(x = pySpin2Index p.1 p.2 ∧ y = pySpin2Index p.2 p.1)) : pyPolarFirst bins g [x, a, y, b, r, t] = 0 := by
  have h1 := h (0, 0) (by decide)
  have h2 := h (0, 1) (by decide)
  have h3 := h (1, 0) (by decide)
  have h4 := h (1, 1) (by decide)
  simp only [pyPolarFirst, pySpinPairs, List.foldl_cons, List.foldl_nil]
  rw [if_neg h4, if_neg h3, if_neg h2, if_neg h1]

/-- **C77**: the first-order functions are those of the arrays. -/
theorem C77_first {vol : ℕ} (ι : (∀ i, Fin (L i)) ≃ Fin vol) (h0 : (ι 0 : ℕ) = 0) {g w w0 : NArr F} {G : Grid L N (Matrix (GIdx m) (GIdx m) F)} {W : Grid L N (Matrix (WIdx m) (WIdx m) F)}
    {W0 : Grid L 1 (Matrix (WIdx m) (WIdx m) F)}
    (hg : ∀ r (t : Fin N) (p q : GIdx m), G r t p q = g.get [pySpin p.1, (p.2 : ℕ), pySpin q.1, (q.2 : ℕ), (ι r : ℕ), (t : ℕ)])
    (hw : ∀ r (t : Fin N) (p q : WIdx m), W r t p q = w.get [pySpin2Index (pySpin p.1.1) (pySpin p.1.2), (p.2 : ℕ), pySpin2Index (pySpin q.1.1) (pySpin q.1.2), (q.2 : ℕ), (ι r : ℕ), (t : ℕ)])
    (hw0 : ∀ r (t : Fin 1) (p q : WIdx m), W0 r t p q = w0.get [pySpin2Index (pySpin p.1.1) (pySpin p.1.2), (p.2 : ℕ), pySpin2Index (pySpin q.1.1) (pySpin q.1.2), (q.2 : ℕ), (ι r : ℕ)])
    (r : ∀ i, Fin (L i)) :
    (∀ t p q, sigmaFirst G W r t p q = pySigmaFirst g w [pySpin p.1, (p.2 : ℕ), pySpin q.1, (q.2 : ℕ), (ι r : ℕ), (t : ℕ)]) ∧
    (∀ t p q, polarFirst G r t p q =
      pyPolarFirst N g [pySpin2Index (pySpin p.1.1) (pySpin p.1.2), (p.2 : ℕ), pySpin2Index (pySpin q.1.1) (pySpin q.1.2), (q.2 : ℕ), (ι r : ℕ), (t : ℕ)]) ∧
    (2 ≤ N → ∀ t p q, deltaFirst G W0 r t p q = pySigmaDelta N m vol g w0 [pySpin p.1, (p.2 : ℕ), pySpin q.1, (q.2 : ℕ), (ι r : ℕ)]) := by
  refine ⟨fun t p q => ?_, fun t p q => ?_, fun hN t p q => ?_⟩
  · obtain ⟨s, a⟩ := p
    obtain ⟨s', b⟩ := q
    unfold sigmaFirst
    simp only [Matrix.of_apply, hg, hw, Fintype.sum_bool]
    rw [pySigmaFirst_eq]
    cases s <;> cases s' <;> simp [pySpin, pySpin2Index] <;> abel
  · obtain ⟨⟨s, s'⟩, a⟩ := p
    obtain ⟨⟨u, u'⟩, b⟩ := q
    unfold polarFirst
    have et : ((Fin.rev t : ℕ) : ℤ) = (N : ℤ) - 1 - (t : ℕ) := by
      have := t.2
      rw [Fin.val_rev]
      omega
    simp only [Matrix.of_apply, hg, et]
    by_cases c : (u, u') = (s', s)
    · rw [if_pos c]
      obtain ⟨rfl, rfl⟩ := Prod.mk.inj c
      have := pyPolarFirst_eq N g u' u a b (ι r : ℕ) (t : ℕ)
      simp only [pySpin2Index]
      rw [mul_comm (pySpin u') 2, mul_comm (pySpin u) 2, this]
      ring
    · rw [if_neg c, pyPolarFirst_off]
      revert c
      cases s <;> cases s' <;> cases u <;> cases u' <;> decide
  · obtain ⟨s, a⟩ := p
    obtain ⟨s', b⟩ := q
    have el : ∀ r (p q : GIdx m), lastG G r p q = pyLast N g [pySpin p.1, (p.2 : ℕ), pySpin q.1, (q.2 : ℕ), (ι r : ℕ)] := by
      intro r p q
      unfold lastG pyLast binAt
      rw [dif_pos ⟨by omega, by omega⟩, dif_pos ⟨by omega, by omega⟩]
      simp only [hg, List.cons_append, List.nil_append]
      rw [Int.toNat_of_nonneg (by omega), Int.toNat_of_nonneg (by omega)]
    rw [pySigmaDelta_eq]
    unfold deltaFirst
    simp only [Matrix.of_apply, el, hw0, h0, Finset.sum_range, Fintype.sum_bool]
    have hr : r = 0 ↔ ((ι r : ℕ) : ℤ) = 0 := by
      constructor
      · rintro rfl
        exact_mod_cast h0
      · intro h
        exact ι.injective (Fin.ext (by rw [h0]; exact_mod_cast h))
    have re : ∀ f : Fin vol → F, ∑ r', f (ι r') = ∑ x, f x := fun f => Equiv.sum_comp ι f
    by_cases c : s = s'
    · subst c
      have hc : ((s, a) = (s, b) ∧ r = 0) ↔ (((a : ℕ) : ℤ) = (b : ℕ) ∧ ((ι r : ℕ) : ℤ) = 0) := by
        rw [← hr, Prod.mk.injEq, Nat.cast_inj, Fin.val_inj]
        simp
      have hs : ∀ x y : Bool, pySpin2Index (pySpin x) (pySpin y) = 2 * pySpin x + pySpin y := fun x y => by rw [pySpin2Index, mul_comm]
      have h3 : pySpin2Index (pySpin s) (pySpin s) = 3 * pySpin s := by rw [hs]; ring
      simp only [hc, h3]
      rw [if_pos trivial, if_pos (show True ∧ _ from ⟨trivial, by cases s <;> simp [pySpin]⟩)]
      have q1 : ∀ x : Fin m, ∑ r', -1 * -1 * -1 * pyLast N g [pySpin true, (x : ℕ), pySpin true, (x : ℕ), ((0 : ℕ) : ℤ)] *
          w0.get [3 * pySpin s, (a : ℕ), pySpin2Index (pySpin true) (pySpin true), (x : ℕ), (ι r' : ℕ)] =
          -∑ r' : Fin vol, pyLast N g [1, (x : ℕ), 1, (x : ℕ), 0] * w0.get [3 * pySpin s, (a : ℕ), 3, (x : ℕ), (r' : ℕ)] := by
        intro x
        rw [re fun y => -1 * -1 * -1 * pyLast N g [pySpin true, (x : ℕ), pySpin true, (x : ℕ), ((0 : ℕ) : ℤ)] *
          w0.get [3 * pySpin s, (a : ℕ), pySpin2Index (pySpin true) (pySpin true), (x : ℕ), (y : ℕ)], ← Finset.sum_neg_distrib]
        exact Finset.sum_congr rfl fun y _ => by simp [pySpin, pySpin2Index]
      have q0 : ∀ x : Fin m, ∑ r', -1 * -1 * -1 * pyLast N g [pySpin false, (x : ℕ), pySpin false, (x : ℕ), ((0 : ℕ) : ℤ)] *
          w0.get [3 * pySpin s, (a : ℕ), pySpin2Index (pySpin false) (pySpin false), (x : ℕ), (ι r' : ℕ)] =
          -∑ r' : Fin vol, pyLast N g [0, (x : ℕ), 0, (x : ℕ), 0] * w0.get [3 * pySpin s, (a : ℕ), 0, (x : ℕ), (r' : ℕ)] := by
        intro x
        rw [re fun y => -1 * -1 * -1 * pyLast N g [pySpin false, (x : ℕ), pySpin false, (x : ℕ), ((0 : ℕ) : ℤ)] *
          w0.get [3 * pySpin s, (a : ℕ), pySpin2Index (pySpin false) (pySpin false), (x : ℕ), (y : ℕ)], ← Finset.sum_neg_distrib]
        exact Finset.sum_congr rfl fun y _ => by simp [pySpin, pySpin2Index]
      rw [sub_eq_add_neg, show ∀ (c : Prop) [Decidable c] (x : F), -(if c then x else 0) = if c then -x else 0 from fun c _ x => by split_ifs <;> simp]
      congr 1
      · cases s <;> simp [pySpin, pySpin2Index] <;> ring
      · split_ifs
        · rw [Finset.sum_congr rfl fun x _ => q1 x, Finset.sum_congr rfl fun x _ => q0 x]
          simp only [Finset.sum_add_distrib, Finset.sum_neg_distrib]
          ring
        · rfl
    · rw [if_neg c, if_neg (fun h => c (congrArg Prod.fst h.1)), if_neg, add_zero]
      revert c
      cases s <;> cases s' <;> decide

/-- **C77**: for one sublattice and two axes, symmetric functions are what the equations of the three-point functions need. -/
theorem C77_vertex [StarRing F] {L : Fin 2 → ℕ} [∀ i, NeZero (L i)] {g : Grid L N (Matrix (GIdx 1) (GIdx 1) F)} {w : Grid L N (Matrix (WIdx 1) (WIdx 1) F)} {J : Grid L 1 (Matrix (WIdx 1) (WIdx 1) F)}
    (hg : SymG g) (hw : SymW w) (hJ : SymJ J) :
    ParticleHole (fun s t => g 0 t (s, 0) (s, 0)) ∧ Exchange (fun p q (r : Vec2 L) => J r 0 (p, 0) (q, 0)) (fun p q r t => w r t (p, 0) (q, 0)) ∧
      RealW (fun p q (r : Vec2 L) => J r 0 (p, 0) (q, 0)) (fun p q r t => w r t (p, 0) (q, 0)) ∧ EvenW (fun p q (r : Vec2 L) t => w r t (p, 0) (q, 0)) :=
  ⟨fun _ _ => hg.hole _ _ _ _, ⟨fun _ _ _ => hJ.spin _ _ _ _ _ _, fun _ _ _ _ => hw.spin _ _ _ _ _ _⟩, ⟨fun _ _ _ => hJ.real _ _ _ _, fun _ _ _ _ => hw.real _ _ _ _⟩,
    fun _ _ _ _ => hw.even _ _ _ _⟩

end

section
variable {F : Type} [Field F] [CharZero F] [StarRing F] {d : ℕ} {L : Fin d → ℕ} {N m : ℕ} [∀ i, NeZero (L i)] [NeZero N]

theorem gDyson_free {κ κ0 : Kind} {E : Phase F} (hg : κ.beta ≠ 0 ∧ κ.hasTau = true ∧ κ.sym = false) (hd : κ0.beta ≠ 0 ∧ κ0.hasTau = false) {solve : Solver (GIdx m) F} (hs : solve.Good)
    {touches : Grid L N (Matrix (GIdx m) (GIdx m) F) → Bool} (ht : ∀ x, touches x = false) {G0 S : Plain L N (Matrix (GIdx m) (GIdx m) F)} {D : Plain L 1 (Matrix (GIdx m) (GIdx m) F)}
    {g0 : Grid L N (Matrix (GIdx m) (GIdx m) F)} (h0 : G0.Shows κ E g0) (h1 : S.Shows κ E fun _ _ => 0) (h2 : D.Shows κ0 E fun _ _ => 0) :
    ∃ G, gDyson κ κ0 E solve touches G0 D S = .done G ∧ G.Shows κ E g0 := by
  have h := C64_G κ κ0 E hg.1 hg.2.1 hg.2.2 hd.1 hd.2 solve hs touches G0 S D g0 (fun _ _ => 0) (fun _ _ => 0) h0 h1 h2
  have free : ∀ g, DysonG ((κ.beta / N : ℚ) : F) g0 (fun _ _ => 0) (fun _ _ => 0) g ↔ g = g0 := by
    intro g
    constructor
    · intro k
      funext r t
      have := k r t
      simpa [conv3, conv2] using this
    · rintro rfl r t
      simp [conv3, conv2]
  cases e : gDyson κ κ0 E solve touches G0 D S with
  | done G => exact ⟨G, rfl, ((h.1 G e) g0).2 ((free g0).2 rfl)⟩
  | touchZero =>
    exfalso
    unfold gDyson at e
    simp only [factorise, ht] at e
    split at e
    · cases e
    · rename_i c
      split at c <;> simp_all
    · cases e
  | crash => exact absurd ⟨g0, (free g0).2 rfl, fun g k => (free g).1 k⟩ (h.2.1 e)

theorem sigmaFirst_zero (g : Grid L N (Matrix (GIdx m) (GIdx m) F)) : sigmaFirst g (fun _ _ => 0) = fun _ _ => 0 := by
  funext r t
  ext p q
  simp [sigmaFirst]

/-- The mean of one function is that function. -/
theorem value_one {M : Type} [AddCommGroup M] [Module ℚ M] (f0 f : Grid L N M) {v : ℕ} (hv : 0 < v) : (Ledger.merge ⟨f0, [], none⟩ (some (ratio v : ℚ)) f).value = f := by
  have h : (0 : ℚ) < v := by exact_mod_cast hv
  unfold Ledger.value
  have hr : 1 / 1000 < (ratio v : ℚ) := by
    unfold ratio
    rw [lt_div_iff₀ (by positivity)]
    have : (1 : ℚ) ≤ v := by exact_mod_cast hv
    linarith
  have ht : (Ledger.merge ⟨f0, [], none⟩ (some (ratio v : ℚ)) f).total = ratio v := by simp [Ledger.merge, Ledger.total]
  rw [ht, if_pos hr]
  funext r n
  simp only [Ledger.merge, Ledger.sum, List.nil_append, List.map_cons, List.map_nil, List.sum_cons, List.sum_nil, add_zero]
  rw [smul_smul, inv_mul_cancel₀ (by linarith), one_smul]

/-- **C77**, the first version of a calculation that starts from the bare propagator, one sublattice, when no determinant is taken for zero: it ends well unless the interaction is too strong for
the polarisation of the bare propagator, and then the program ends. -/
theorem C77_start {κ : ScfKinds} (hκ : κ.Good) {T : ScfTools F L N 1} (hG : T.solveG.Good) (hW : T.solveW.Good) (tG : ∀ x, T.touchG x = false) (tW : ∀ x, T.touchW x = false)
    {G0 : Plain L N (Matrix (GIdx 1) (GIdx 1) F)} {W0 : Plain L 1 (Matrix (WIdx 1) (WIdx 1) F)} {g : Grid L N (Matrix (GIdx 1) (GIdx 1) F)} {J : Grid L 1 (Matrix (WIdx 1) (WIdx 1) F)}
    (h0 : G0.Shows κ.g T.E g) (sg : SymG g) (h1 : W0.Shows κ.w0 T.E J) (sJ : SymJ J) {v : ℕ} (hv : 0 < v) :
    ((Scf.new G0 : Scf ℚ F L N 1).version κ T v G0 W0 = none ↔
      ∃ k, ∃ n : Fin N, 2 * (T.E.cos (((n : ℕ) : ℚ) / N) * ((κ.w.beta / N : ℚ) : F) *
        (fftn T.E (fun r t => J r t ((true, true), 0) ((true, true), 0)) k 0 * matsubara T.E 0 (fun r t => -(g r (Fin.rev t) (true, 0) (true, 0) * g r t (true, 0) (true, 0))) 0 n)) = 1) ∧
    ∀ s e, (Scf.new G0 : Scf ℚ F L N 1).version κ T v G0 W0 = some (s, e) → e = .well := by
  have plain : ∀ {N' : ℕ} {M : Type} [AddCommGroup M] [Module F M] (κ' : Kind) (f : Grid L N' M), (Plain.mk f false false).Shows κ' T.E f := fun κ' f => (κ'.view_false T.E f).symm
  obtain ⟨dG, hG1⟩ := shows_RT hκ.g.1 h0
  obtain ⟨dW, hW1⟩ := shows_RT hκ.w.1 (plain κ.w (fun _ _ => 0 : Grid L N (Matrix (WIdx 1) (WIdx 1) F)))
  obtain ⟨dJ, hJ1⟩ := shows_R hκ.w0.1 hκ.w0.2 h1
  have td1 := ((Tracked.new (Q := ℚ) (t0 := false) (plain κ.delta (fun _ _ => 0 : Grid L 1 (Matrix (GIdx 1) (GIdx 1) F)))).merge (some (ratio v)) rfl
    (plain κ.delta fun _ _ => (0 : Matrix (GIdx 1) (GIdx 1) F))).fft [.K]
  have sd1 := C65_ledger κ.delta T.E one_pos (axes_pos L) hκ.delta.1 false _ _ td1
  have sd2 := C65_ledger κ.delta T.E one_pos (axes_pos L) hκ.delta.1 false _ _ (td1.fft [.K])
  rw [value_one _ _ hv] at sd1 sd2
  have ts1 := (Tracked.new (Q := ℚ) (t0 := true) (plain κ.g (fun _ _ => 0 : Grid L N (Matrix (GIdx 1) (GIdx 1) F)))).fft [.K, .W]
  have ss1 := C65_ledger κ.g T.E (bins_pos N) (axes_pos L) hκ.g.1 true _ _ ts1
  have z1 : (Ledger.mk (fun _ _ => 0) [] none : Ledger ℚ (Grid L N (Matrix (GIdx 1) (GIdx 1) F))).value = fun _ _ => 0 := by
    simp [Ledger.value, Ledger.total]
  rw [z1] at ss1
  have ts2 := (ts1.merge (some (ratio v)) (fft_R_time _ _ _).2.2.1 (plain κ.g fun _ _ => (0 : Matrix (GIdx 1) (GIdx 1) F))).fft [.K, .W]
  have ss2 := C65_ledger κ.g T.E (bins_pos N) (axes_pos L) hκ.g.1 true _ _ ts2
  rw [value_one _ _ hv] at ss2
  obtain ⟨G1, e1, k1⟩ := gDyson_free hκ.g hκ.delta hG tG h0 ss1 sd1
  obtain ⟨G2, e2, k2⟩ := gDyson_free hκ.g hκ.delta hG tG h0 ss2 sd2
  obtain ⟨dG1, _⟩ := shows_RT hκ.g.1 k1
  obtain ⟨dG2, _⟩ := shows_RT hκ.g.1 k2
  have tp1 := ((Tracked.new (Q := ℚ) (t0 := false) (plain κ.w (fun _ _ => 0 : Grid L N (Matrix (WIdx 1) (WIdx 1) F)))).merge (some (ratio v)) rfl (plain κ.w (polarFirst g))).fft [.K, .W]
  have sp1 := C65_ledger κ.w T.E (bins_pos N) (axes_pos L) hκ.w.1 false _ _ tp1
  rw [value_one _ _ hv] at sp1
  have key := C77_instability κ.w κ.w0 T.E hκ.w.1 hκ.w.2.1 hκ.w.2.2 hκ.w0.1 hκ.w0.2 T.solveW hW T.touchW hJ1 sJ sp1 (polarFirst_sym sg)
  unfold Scf.version Scf.new Merged.new
  simp only [dG, dW, dJ, deltaFirst_zero sg sJ]
  rw [e1]
  simp only [dG1, sigmaFirst_zero]
  rw [e2]
  simp only [dG2]
  constructor
  · have kf : ∀ r t, polarFirst g r t ((true, true), 0) ((true, true), 0) = -(g r (Fin.rev t) (true, 0) (true, 0) * g r t (true, 0) (true, 0)) := by
      intro r t
      simp [polarFirst]
    simp only [kf] at key
    rw [← key]
    split <;> simp_all
  · intro s e h
    split at h
    · cases h
    · rename_i c
      exfalso
      unfold wDyson at c
      simp only [factorise, tW] at c
      split at c
      · cases c
      · rename_i c'
        split at c' <;> simp_all
      · cases c
    · cases h
      rfl
end

theorem phase_norm (x : ℚ) : ‖Phase.complex.ph x‖ = 1 := by
  simp [Phase.complex, Complex.norm_exp]

theorem phase_cos_norm (x : ℚ) : ‖Phase.complex.cos x‖ ≤ 1 := by
  unfold Phase.cos
  rw [norm_div, show ‖(2 : ℂ)‖ = 2 by simp, div_le_one (by norm_num)]
  refine (norm_add_le _ _).trans ?_
  rw [phase_norm, phase_norm]
  norm_num

/-- **C77**: a weak interaction never ends the first version. -/
theorem C77_weak {d : ℕ} {L : Fin d → ℕ} {N : ℕ} [∀ i, NeZero (L i)] [NeZero N] {κ : ScfKinds} (hκ : κ.Good) {T : ScfTools ℂ L N 1} (hE : T.E = Phase.complex) (hG : T.solveG.Good) (hW : T.solveW.Good)
    (tG : ∀ x, T.touchG x = false) (tW : ∀ x, T.touchW x = false)
    {G0 : Plain L N (Matrix (GIdx 1) (GIdx 1) ℂ)} {W0 : Plain L 1 (Matrix (WIdx 1) (WIdx 1) ℂ)} {g : Grid L N (Matrix (GIdx 1) (GIdx 1) ℂ)} {J : Grid L 1 (Matrix (WIdx 1) (WIdx 1) ℂ)}
    (h0 : G0.Shows κ.g T.E g) (sg : SymG g) (h1 : W0.Shows κ.w0 T.E J) (sJ : SymJ J) {v : ℕ} (hv : 0 < v)
    (weak : 2 * (|(κ.w.beta : ℝ)| / N * ((∑ r, ‖J r 0 ((true, true), 0) ((true, true), 0)‖) * ∑ t : Fin N, ‖g 0 (Fin.rev t) (true, 0) (true, 0)‖ * ‖g 0 t (true, 0) (true, 0)‖)) < 1) :
    ∃ s, (Scf.new G0 : Scf ℚ ℂ L N 1).version κ T v G0 W0 = some (s, .well) := by
  obtain ⟨k1, k2⟩ := C77_start hκ hG hW tG tW h0 sg h1 sJ hv
  cases e : (Scf.new G0 : Scf ℚ ℂ L N 1).version κ T v G0 W0 with
  | some x =>
    obtain ⟨s, e'⟩ := x
    exact ⟨s, by rw [k2 s e' e]⟩
  | none =>
    exfalso
    obtain ⟨k, n, h⟩ := k1.1 e
    rw [hE] at h
    refine absurd (congrArg norm h) (ne_of_lt (lt_of_le_of_lt ?_ (weak.trans_eq norm_one.symm)))
    rw [norm_mul, norm_mul, norm_mul, norm_mul, show ‖(2 : ℂ)‖ = 2 by simp]
    have a1 : ‖Phase.complex.cos (((n : ℕ) : ℚ) / N)‖ * ‖((κ.w.beta / N : ℚ) : ℂ)‖ ≤ |(κ.w.beta : ℝ)| / N := by
      have : ‖((κ.w.beta / N : ℚ) : ℂ)‖ = |(κ.w.beta : ℝ)| / N := by
        rw [show ((κ.w.beta / N : ℚ) : ℂ) = (((κ.w.beta : ℝ) / (N : ℝ) : ℝ) : ℂ) by push_cast; rfl, Complex.norm_real, Real.norm_eq_abs, abs_div, Nat.abs_cast]
      rw [this]
      exact mul_le_of_le_one_left (by positivity) (phase_cos_norm _)
    have a2 : ‖fftn Phase.complex (fun r t => J r t ((true, true), 0) ((true, true), 0)) k 0‖ ≤ ∑ r, ‖J r 0 ((true, true), 0) ((true, true), 0)‖ := by
      unfold fftn
      refine (norm_sum_le _ _).trans (Finset.sum_le_sum fun r _ => ?_)
      rw [norm_smul, phase_norm, one_mul]
    have a3 : ‖matsubara Phase.complex 0 (fun r t => -(g r (Fin.rev t) (true, 0) (true, 0) * g r t (true, 0) (true, 0))) 0 n‖ ≤
        ∑ t : Fin N, ‖g 0 (Fin.rev t) (true, 0) (true, 0)‖ * ‖g 0 t (true, 0) (true, 0)‖ := by
      unfold matsubara
      refine (norm_sum_le _ _).trans (Finset.sum_le_sum fun r _ => ?_)
      rw [norm_smul, phase_norm, one_mul, norm_neg, norm_mul]
    gcongr

/-! ### Examples -/

/-- Two sites, two bins: a propagator and an exchange between the two sites. -/
noncomputable def twoG : Grid (fun _ : Fin 1 => 2) 2 (Matrix (GIdx 1) (GIdx 1) ℂ) := fun r _ => if r = 0 then (1 / 2 : ℂ) • 1 else 0

noncomputable def twoJ (j : ℂ) : Grid (fun _ : Fin 1 => 2) 1 (Matrix (WIdx 1) (WIdx 1) ℂ) := fun r _ => if r = 0 then 0 else Matrix.of fun p q => exchange p.1 q.1 j

def twoKinds : ScfKinds := ⟨⟨2, false, true⟩, ⟨2, true, true⟩, ⟨2, true, false⟩, ⟨2, true, false⟩⟩

noncomputable def twoTools : ScfTools ℂ (fun _ : Fin 1 => 2) 2 1 := ⟨Phase.complex, inverter _ _, fun _ => false, inverter _ _, fun _ => false⟩

theorem twoKinds_good : twoKinds.Good := ⟨⟨by norm_num [twoKinds], rfl, rfl⟩, ⟨by norm_num [twoKinds], rfl, rfl⟩, ⟨by norm_num [twoKinds], rfl⟩, ⟨by norm_num [twoKinds], rfl⟩⟩

theorem twoG_sym : SymG twoG := by
  refine ⟨fun r t p q h => ?_, fun r t s s' a => ?_, fun r t p q => ?_⟩
  · unfold twoG
    split_ifs with c
    · rw [Matrix.smul_apply, Matrix.one_apply_ne, smul_zero]
      simpa [c] using h
    · rfl
  · unfold twoG
    split_ifs <;> simp
  · unfold twoG
    split_ifs
    · rw [Matrix.smul_apply, Matrix.one_apply]
      split_ifs <;> simp
    · simp

theorem twoJ_sym (x : ℝ) : SymJ (twoJ x) := by
  refine ⟨fun r t p q a b => ?_, fun r t p q => ?_, fun t p q a => ?_⟩
  · unfold twoJ
    split_ifs
    · simp [exchange]
    · simp only [Matrix.of_apply]
      simp [exchange]
  · unfold twoJ
    split_ifs
    · simp
    · simp only [Matrix.of_apply]
      obtain ⟨⟨_ | _, _ | _⟩, a⟩ := p <;> obtain ⟨⟨_ | _, _ | _⟩, b⟩ := q <;> simp [exchange]
  · simp [twoJ]

/-- A calculation with an interaction that ends its first version well and has all symmetries then. -/
example : ∃ s, (Scf.new ⟨twoG, false, false⟩ : Scf ℚ ℂ _ 2 1).run twoKinds twoTools 0 [(⟨twoG, false, false⟩, ⟨twoJ (1 / 4 : ℝ), false, false⟩)] = some (s, [.well]) ∧ s.Symmetric twoKinds Phase.complex := by
  have sh : (Plain.mk twoG false false).Shows twoKinds.g Phase.complex twoG := (twoKinds.g.view_false _ _).symm
  have sh' : (Plain.mk (twoJ (1 / 4 : ℝ)) false false).Shows twoKinds.w0 Phase.complex (twoJ (1 / 4 : ℝ)) := (twoKinds.w0.view_false _ _).symm
  obtain ⟨s, h⟩ := C77_weak twoKinds_good (T := twoTools) rfl inverter_good inverter_good (fun _ => rfl) (fun _ => rfl) sh twoG_sym sh' (twoJ_sym _) (v := 1) one_pos (by
    have e : ∀ f : (∀ i : Fin 1, Fin ((fun _ : Fin 1 => 2) i)) → ℝ, ∑ r, f r = f (fun _ => 0) + f (fun _ => 1) := by
      intro f
      rw [← (Equiv.funUnique (Fin 1) (Fin 2)).symm.sum_comp f, Fin.sum_univ_two]
      rfl
    rw [e]
    have z : (fun _ => 0 : ∀ i : Fin 1, Fin ((fun _ : Fin 1 => 2) i)) = 0 := rfl
    have o : (fun _ => 1 : ∀ i : Fin 1, Fin ((fun _ : Fin 1 => 2) i)) ≠ 0 := by decide
    simp [twoG, twoJ, z, o, twoKinds, exchange]
    norm_num)
  have hr : (Scf.new ⟨twoG, false, false⟩ : Scf ℚ ℂ _ 2 1).run twoKinds twoTools 0 [(⟨twoG, false, false⟩, ⟨twoJ (1 / 4 : ℝ), false, false⟩)] = some (s, [.well]) := by
    unfold Scf.run
    rw [zero_add, h]
    rfl
  obtain ⟨n1, n2⟩ := C77_new (κ := twoKinds) (E := Phase.complex) ⟨twoG, sh, twoG_sym⟩
  exact ⟨s, hr, C77_run_partial twoKinds_good (T := twoTools) inverter_good inverter_good n1 n2 0 _ (fun x hx => by
    rw [List.mem_singleton] at hx
    subst hx
    exact ⟨⟨_, sh, twoG_sym⟩, ⟨_, sh', twoJ_sym _⟩⟩) hr (by simp)⟩

/-- With the strong interaction `1` between them the program ends in the first version: at the wave vector `pi`. -/
example : (Scf.new ⟨twoG, false, false⟩ : Scf ℚ ℂ _ 2 1).run twoKinds twoTools 0 [(⟨twoG, false, false⟩, ⟨twoJ (1 : ℝ), false, false⟩)] = none := by
  have sh : (Plain.mk twoG false false).Shows twoKinds.g Phase.complex twoG := (twoKinds.g.view_false _ _).symm
  have sh' : (Plain.mk (twoJ (1 : ℝ)) false false).Shows twoKinds.w0 Phase.complex (twoJ (1 : ℝ)) := (twoKinds.w0.view_false _ _).symm
  have h := (C77_start twoKinds_good (T := twoTools) inverter_good inverter_good (fun _ => rfl) (fun _ => rfl) sh twoG_sym sh' (twoJ_sym _) (v := 1) one_pos).1.2
  have := h ⟨fun _ => 1, 0, by
    have e : ∀ f : (∀ i : Fin 1, Fin ((fun _ : Fin 1 => 2) i)) → ℂ, ∑ r, f r = f (fun _ => 0) + f (fun _ => 1) := by
      intro f
      rw [← (Equiv.funUnique (Fin 1) (Fin 2)).symm.sum_comp f, Fin.sum_univ_two]
      rfl
    have z : (fun _ => 0 : ∀ i : Fin 1, Fin ((fun _ : Fin 1 => 2) i)) = 0 := rfl
    have o : (fun _ => 1 : ∀ i : Fin 1, Fin ((fun _ : Fin 1 => 2) i)) ≠ 0 := by decide
    simp only [fftn, matsubara, e, Fin.sum_univ_two]
    simp [twoG, twoJ, z, o, twoKinds, twoTools, exchange, Phase.cos, Phase.complex, angle]
    norm_num⟩
  unfold Scf.run
  rw [zero_add, this]
  rfl

end Feyn
