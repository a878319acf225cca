import Verif.Proof.Loop

/-!
# The accumulated functions of the self-consistency loop (C65)
-/

namespace Feyn

set_option linter.unusedSectionVars false

section
variable {F M Q : Type} [Field F] [CharZero F] [AddCommGroup M] [Module F M] [Field Q] [LinearOrder Q] [IsStrictOrderedRing Q] [Module Q M] [Algebra Q F]
  [IsScalarTower Q F M] {d : ℕ} {L : Fin d → ℕ} {N : ℕ}

/-- **C65**, the rule for one weight: as long as `Merge` and `RollBack` are called in one time domain, the weight represents, in whatever domain it is, the weighted
mean of what is in its ledger. -/
theorem C65_ledger (κ : Kind) (E : Phase F) (hN : 0 < N) (hL : ∀ i, 0 < L i) (hb : κ.beta ≠ 0) (t0 : Bool) (w : Merged Q L N M)
    (b : Ledger Q (Grid L N M)) (h : Tracked κ E t0 w b) : w.toPlain.Shows κ E b.value := (h.agrees hN hL hb).data

/-- **C65** for `SigmaDeltaT`: as soon as one version ended well, it represents the mean of the contributions of the versions that ended well with the weights
`v/(v+10)`; versions that failed, wherever they failed, leave no trace. -/
theorem C65_delta (κ : Kinds) (E : Phase F) (hL : ∀ i, 0 < L i) (hb : κ.delta.beta ≠ 0) (mc : Bool) (s : Funcs Q L N M)
    (hs : s.Start) (v : ℕ) (xs : List (Version L N M)) (hx : ∃ x ∈ xs, x.ending = .well) :
    (s.loop κ E mc v xs).delta.toPlain.Shows κ.delta E (average (contributions (Q := Q) (·.delta) v xs)) := by
  obtain ⟨f, hf⟩ := hs.delta
  have h0 : HoldsSums κ.delta E false s.delta (0 : Q) (fun _ _ => 0) := by rw [hf]; exact holds_start κ.delta E false f
  have h1 := holds_loop κ E mc κ.delta false (fun s => s.delta) (fun x => x.delta) (fun _ => True) (fun w => w.time = false) ?_ xs v s 0 (fun _ _ => 0)
    (fun _ _ => trivial) (by simp [hf]) h0
  · simp only [zero_add] at h1
    exact h1.shows Nat.one_pos hL hb ((contributions_pos _ v xs).2 hx)
  · intro v x s c S _ ht h
    have hm := fun r => h.merge ht r x.delta
    have tm : ∀ r, (s.delta.merge κ.delta E (some r) ⟨x.delta, false, false⟩).time = false := fun r => ht
    have tk : ∀ (w : Merged Q L 1 M), w.time = false → (w.fft κ.delta E [.K]).time = false := fun w h => by rw [Merged.fft_time, h]; simp [after]
    have tr : ∀ (w : Merged Q L 1 M), w.time = false → (w.fft κ.delta E [.R]).time = false := fun w h => by rw [Merged.fft_time, h]; simp [after]
    have u0 := fun r => h.undo ht r x.delta [] (tm r)
    have u1 := fun r => h.undo ht r x.delta [[.K]] (tk _ (tm r))
    have u2 := fun r => h.undo ht r x.delta [[.K], [.K]] (tk _ (tk _ (tm r)))
    have g1 := fun r => ((hm r).fft [.K]).fft [.R]
    have g2 := fun r => (((hm r).fft [.K]).fft [.K]).fft [.R]
    simp only [List.foldl_nil, List.foldl_cons] at u0 u1 u2
    cases mc <;> cases he : x.ending <;>
      simp [Funcs.versionMC, Funcs.versionDyson, Funcs.finish, Funcs.beforeG, Funcs.measure, Funcs.rollBack, he, Merged.rollBack_time, tk, tr, tm, u0, u1, u2] <;>
      first | exact ⟨tr _ (tk _ (tm _)), g1 _⟩ | exact ⟨tr _ (tk _ (tk _ (tm _))), g2 _⟩ | exact g1 _

/-- **C65** for `Sigma` without Monte Carlo data, the part that holds: if no version fails in the first call of `G_Dyson`, it represents the mean of the contributions
of the versions that ended well. -/
theorem C65_sigma_partial (κ : Kinds) (E : Phase F) (hN : 0 < N) (hL : ∀ i, 0 < L i) (hb : κ.sigma.beta ≠ 0) (s : Funcs Q L N M)
    (hs : s.Start) (v : ℕ) (xs : List (Version L N M)) (hx : ∃ x ∈ xs, x.ending = .well) (he : ∀ x ∈ xs, x.ending ≠ .early) :
    (s.loop κ E false v xs).sigma.toPlain.Shows κ.sigma E (average (contributions (Q := Q) (·.sigma) v xs)) := by
  obtain ⟨f, hf⟩ := hs.sigma
  have h0 : HoldsSums κ.sigma E true s.sigma (0 : Q) (fun _ _ => 0) := by rw [hf]; exact holds_start κ.sigma E true f
  have h1 := holds_loop κ E false κ.sigma true (fun s => s.sigma) (fun x => x.sigma) (· ≠ .early) (fun _ => True) ?_ xs v s 0 (fun _ _ => 0)
    he trivial h0
  · simp only [zero_add] at h1
    exact h1.shows hN hL hb ((contributions_pos _ v xs).2 hx)
  · intro v x s c S hne _ h
    have tw : ∀ (w : Merged Q L N M), (w.fft κ.sigma E [.K, .W]).time = true := fun w => by rw [Merged.fft_time]; simp [after]
    have h' := h.fft [.K, .W]
    have hm := fun r => h'.merge (tw _) r x.sigma
    have u1 := fun r => h'.undo (tw _) r x.sigma [[.K, .W]] (tw _)
    have g1 := fun r => ((hm r).fft [.K, .W]).fft [.R, .T]
    simp only [List.foldl_nil, List.foldl_cons] at u1
    cases he : x.ending <;>
      simp [Funcs.versionDyson, Funcs.finish, Funcs.beforeG, Funcs.measure, Funcs.rollBack, he, u1]
    · exact absurd he hne
    · exact g1 _

/-- **C65** for `Sigma` with Monte Carlo data: it represents what the statistics gave in the last version in which they could be collected, whatever happened
afterwards. -/
theorem C65_sigma_mc (κ : Kinds) (E : Phase F) (hN : 0 < N) (hL : ∀ i, 0 < L i) (hb : κ.sigma.beta ≠ 0) (s : Funcs Q L N M) (v : ℕ)
    (xs ys : List (Version L N M)) (x : Version L N M) (hx : x.ending ≠ .early) (hy : ∀ y ∈ ys, y.ending = .early) :
    (s.loop κ E true v (xs ++ x :: ys)).sigma.toPlain.Shows κ.sigma E x.sigma := by
  have sh : ∀ f : Grid L N M, Tracked κ.sigma E true (⟨⟨f, false, false⟩, none, none, none⟩ : Merged Q L N M) ⟨f, [], none⟩ := fun f =>
    .new (κ.sigma.view_false E f).symm
  have nb : ∀ (w : Merged Q L N M) (ls : List Letter), w.back = none → (w.fft κ.sigma E ls).back = none := by
    intro w ls h
    unfold Merged.fft
    simp only
    repeat' split
    all_goals exact h
  have rb : ∀ (w : Merged Q L N M), w.back = none → w.rollBack κ.sigma E = w := by
    intro w h
    unfold Merged.rollBack
    rw [h]
  have one : ∀ (v : ℕ) (s : Funcs Q L N M), Tracked κ.sigma E true (s.versionMC κ E v x).sigma ⟨x.sigma, [], none⟩ ∧ (s.versionMC κ E v x).sigma.back = none := by
    intro v s
    have r1 := Tracked.fft [.K, .W] (sh x.sigma)
    have r2 := Tracked.fft [.R, .T] r1
    have b1 := nb ⟨⟨x.sigma, false, false⟩, none, none, none⟩ [.K, .W] rfl
    have b2 := nb _ [.R, .T] b1
    cases he : x.ending
    · exact absurd he hx
    all_goals
      simp [Funcs.versionMC, Funcs.finish, Funcs.beforeG, Funcs.measure, Funcs.rollBack, he, rb _ b1]
      first | exact ⟨r1, b1⟩ | exact ⟨r2, b2⟩
  have tail : ∀ (ys : List (Version L N M)) (v : ℕ) (s : Funcs Q L N M), (∀ y ∈ ys, y.ending = .early) →
      Tracked κ.sigma E true s.sigma ⟨x.sigma, [], none⟩ ∧ s.sigma.back = none → Tracked κ.sigma E true (s.loop κ E true v ys).sigma ⟨x.sigma, [], none⟩ := by
    intro ys
    induction ys with
    | nil => intro v s _ h; exact h.1
    | cons y ys ih =>
      intro v s hy h
      refine ih (v + 1) _ (fun z hz => hy z (by simp [hz])) ?_
      simp [Funcs.versionMC, Funcs.rollBack, hy y (by simp), rb _ h.2]
      exact h
  have split : ∀ (xs : List (Version L N M)) (v : ℕ) (s : Funcs Q L N M),
      Tracked κ.sigma E true (s.loop κ E true v (xs ++ x :: ys)).sigma ⟨x.sigma, [], none⟩ := by
    intro xs
    induction xs with
    | nil => intro v s; exact tail ys (v + 1) _ hy (one _ _)
    | cons y xs ih => intro v s; exact ih (v + 1) _
  have h := C65_ledger κ.sigma E hN hL hb true _ _ (split xs v s)
  have h0 : ¬ (1 / 1000 : Q) < 0 := by rw [not_lt]; positivity
  unfold Ledger.value Ledger.total at h
  simp only [List.map_nil, List.sum_nil, h0, if_false] at h
  exact h

/-- **C65** for `Polar`, the part that holds: if no version fails, it represents the mean of the contributions. -/
theorem C65_polar_partial (κ : Kinds) (E : Phase F) (hN : 0 < N) (hL : ∀ i, 0 < L i) (hb : κ.polar.beta ≠ 0) (mc : Bool) (s : Funcs Q L N M)
    (hs : s.Start) (v : ℕ) (xs : List (Version L N M)) (hx : xs ≠ []) (he : ∀ x ∈ xs, x.ending = .well) :
    (s.loop κ E mc v xs).polar.toPlain.Shows κ.polar E (average (contributions (Q := Q) (·.polar) v xs)) := by
  obtain ⟨f, hf⟩ := hs.polar
  have h0 : HoldsSums κ.polar E false s.polar (0 : Q) (fun _ _ => 0) := by rw [hf]; exact holds_start κ.polar E false f
  have h1 := holds_loop κ E mc κ.polar false (fun s => s.polar) (fun x => x.polar) (· = .well) (fun w => w.time = false) ?_ xs v s 0 (fun _ _ => 0)
    he (by simp [hf]) h0
  · simp only [zero_add] at h1
    obtain ⟨x, hx'⟩ := List.exists_mem_of_ne_nil xs hx
    exact h1.shows hN hL hb ((contributions_pos _ v xs).2 ⟨x, hx', he x hx'⟩)
  · intro v x s c S hne ht h
    have tw : ∀ (w : Merged Q L N M), (w.fft κ.polar E [.R, .T]).time = false := fun w => by rw [Merged.fft_time]; cases w.time <;> simp [after]
    have g1 := fun r => ((h.merge ht r x.polar).fft [.K, .W]).fft [.R, .T]
    cases mc <;>
      simp [Funcs.versionMC, Funcs.versionDyson, Funcs.finish, Funcs.beforeG, Funcs.measure, hne, tw] <;> exact g1 _

/-- What the code does with `Polar` if the statistics cannot be collected in the third version: the contribution of the second version, which ended well, is taken out. -/
theorem collect_polar (κ : Kinds) (E : Phase F) (hN : 0 < N) (hL : ∀ i, 0 < L i) (hb : κ.polar.beta ≠ 0) (s : Funcs Q L N M) (hs : s.Start)
    (x y z : Version L N M) (hx : x.ending = .well) (hy : y.ending = .well) (hz : z.ending = .early) :
    (s.loop κ E true 0 [x, y, z]).polar.toPlain.Shows κ.polar E x.polar := by
  obtain ⟨f, hf⟩ := hs.polar
  have tw : ∀ (w : Merged Q L N M), (w.fft κ.polar E [.R, .T]).time = false := fun w => by rw [Merged.fft_time]; cases w.time <;> simp [after]
  have r0 : Tracked κ.polar E false s.polar ⟨f, [], none⟩ := by rw [hf]; exact .new (κ.polar.view_false E f).symm
  have sx : ∀ f : Grid L N M, (Plain.mk f false false).Shows κ.polar E f := fun f => (κ.polar.view_false E f).symm
  have r1 := Tracked.fft [.R, .T] (Tracked.fft [.K, .W] (Tracked.merge (some (ratio 1)) r0 (by rw [hf]) (sx x.polar)))
  have r2 := Tracked.fft [.R, .T] (Tracked.fft [.K, .W] (Tracked.merge (some (ratio 2)) r1 (tw _) (sx y.polar)))
  have r3 := Tracked.rollBack r2 (tw _)
  have h := C65_ledger κ.polar E hN hL hb false _ _ r3
  simp only [Funcs.loop, Funcs.versionMC, Funcs.finish, Funcs.beforeG, Funcs.measure, Funcs.rollBack, hx, hy, hz, if_true, reduceCtorEq, if_false]
  convert h using 1
  simp only [Ledger.merge, Ledger.rollBack, Ledger.value, Ledger.total, Ledger.sum, List.nil_append, List.cons_append, List.map_cons, List.map_nil, List.sum_cons,
    List.sum_nil, add_zero, neg_smul, add_neg_cancel]
  have h1 : (1 / 1000 : Q) < ratio 1 := by unfold ratio; norm_num
  have h2 : (ratio 1 : Q) ≠ 0 := by unfold ratio; norm_num
  rw [if_pos h1]
  funext r n
  rw [smul_smul, inv_mul_cancel₀ h2, one_smul]

end

/-- One site, `N` bins, numbers instead of matrices, nothing accumulated. -/
def blank (N : ℕ) : Funcs ℚ (fun _ : Fin 0 => 1) N ℂ :=
  ⟨⟨⟨fun _ _ => 0, false, false⟩, none, none, none⟩, ⟨⟨fun _ _ => 0, false, false⟩, none, none, none⟩, ⟨⟨fun _ _ => 0, false, false⟩, none, none, none⟩⟩

theorem blank_start (N : ℕ) : (blank N).Start := ⟨⟨_, rfl⟩, ⟨_, rfl⟩, ⟨_, rfl⟩⟩

/-- The kinds of the code at inverse temperature one. -/
def kinds : Kinds := ⟨⟨1, false, false⟩, ⟨1, false, true⟩, ⟨1, true, true⟩⟩

/-- A version whose three contributions are given numbers at the first bin and zero elsewhere. -/
def pulse (N : ℕ) (a b c : ℂ) (e : Ending) : Version (fun _ : Fin 0 => 1) N ℂ :=
  ⟨fun _ _ => a, fun _ n => if n.val = 0 then b else 0, fun _ n => if n.val = 0 then c else 0, e⟩

/-- The hypotheses of `C65_delta` are met by a run of three versions the second of which fails: the mean is that of the first and the third, with the weights 1/11 and 3/13. -/
example : (blank 1).Start ∧ (∃ x ∈ [pulse 1 1 0 0 .well, pulse 1 7 0 0 .g, pulse 1 5 0 0 .well], x.ending = .well) ∧
    average (contributions (Q := ℚ) (·.delta) 0 [pulse 1 1 0 0 .well, pulse 1 7 0 0 .g, pulse 1 5 0 0 .well]) =
      fun _ _ => ((1 / 11 * 1 + 3 / 13 * 5) / (1 / 11 + 3 / 13) : ℂ) := by
  refine ⟨blank_start 1, ⟨pulse 1 1 0 0 .well, by simp, rfl⟩, ?_⟩
  have he : Ending.g ≠ .well := by decide
  funext r n
  norm_num [he, average, contributions, pulse, Algebra.smul_def, ratio]

/-- **C65** fails for `Polar` with Monte Carlo data if statistics cannot be collected: the handler calls `Polar.RollBack` although `Polar` was not merged in this version. -/
theorem C65_refuted_collect : ∃ xs : List (Version (fun _ : Fin 0 => 1) 1 ℂ), (∃ x ∈ xs, x.ending = .well) ∧
    ¬ ((blank 1).loop kinds Phase.complex true 0 xs).polar.toPlain.Shows kinds.polar Phase.complex (average (contributions (Q := ℚ) (·.polar) 0 xs)) := by
  refine ⟨[pulse 1 0 0 1 .well, pulse 1 0 0 0 .well, pulse 1 0 0 0 .early], ⟨pulse 1 0 0 1 .well, by simp, rfl⟩, fun h => ?_⟩
  have h1 := collect_polar kinds Phase.complex one_pos (fun i => i.elim0) one_ne_zero (blank 1) (blank_start 1) (pulse 1 0 0 1 .well) (pulse 1 0 0 0 .well)
    (pulse 1 0 0 0 .early) rfl rfl rfl
  obtain ⟨f, _, hu⟩ := C63_faithful kinds.polar Phase.complex one_pos (fun i => i.elim0) one_ne_zero
    ((blank 1).loop kinds Phase.complex true 0 [pulse 1 0 0 1 .well, pulse 1 0 0 0 .well, pulse 1 0 0 0 .early]).polar.toPlain
  have h2 := congrFun (congrFun ((hu _ h).trans (hu _ h1).symm) fun i => i.elim0) 0
  have he : Ending.early ≠ .well := by decide
  norm_num [he, average, contributions, pulse, Algebra.smul_def] at h2

/-- **C65** fails for `Sigma` without Monte Carlo data if the first `G_Dyson` of a version fails: `Sigma` was not merged yet. -/
theorem C65_refuted_first_G : ∃ xs : List (Version (fun _ : Fin 0 => 1) 1 ℂ), (∃ x ∈ xs, x.ending = .well) ∧
    ¬ ((blank 1).loop kinds Phase.complex false 0 xs).sigma.toPlain.Shows kinds.sigma Phase.complex (average (contributions (Q := ℚ) (·.sigma) 0 xs)) := by
  refine ⟨[pulse 1 0 1 0 .well, pulse 1 0 0 0 .well, pulse 1 0 0 0 .early], ⟨pulse 1 0 1 0 .well, by simp, rfl⟩, fun h => ?_⟩
  have tw : ∀ (w : Merged ℚ (fun _ : Fin 0 => 1) 1 ℂ), (w.fft kinds.sigma Phase.complex [.K, .W]).time = true := fun w => by rw [Merged.fft_time]; simp [after]
  have sx : ∀ f : Grid (fun _ : Fin 0 => 1) 1 ℂ, (Plain.mk f false false).Shows kinds.sigma Phase.complex f := fun f => (kinds.sigma.view_false _ f).symm
  have r0 : Tracked kinds.sigma Phase.complex true (blank 1).sigma ⟨fun _ _ => 0, [], none⟩ := .new (sx _)
  have r1 := Tracked.fft [.R, .T] (Tracked.fft [.K, .W] (Tracked.merge (some (ratio 1)) (Tracked.fft [.K, .W] r0) (tw _) (sx (pulse 1 0 1 0 .well).sigma)))
  have r2 := Tracked.fft [.R, .T] (Tracked.fft [.K, .W] (Tracked.merge (some (ratio 2)) (Tracked.fft [.K, .W] r1) (tw _) (sx (pulse 1 0 0 0 .well).sigma)))
  have r3 := Tracked.rollBack (Tracked.fft [.K, .W] r2) (tw _)
  have h1 := C65_ledger kinds.sigma Phase.complex one_pos (fun i => i.elim0) one_ne_zero true _ _ r3
  obtain ⟨f, _, hu⟩ := C63_faithful kinds.sigma Phase.complex one_pos (fun i => i.elim0) one_ne_zero
    ((blank 1).loop kinds Phase.complex false 0 [pulse 1 0 1 0 .well, pulse 1 0 0 0 .well, pulse 1 0 0 0 .early]).sigma.toPlain
  have h2 := congrFun (congrFun ((hu _ h).trans (hu _ h1).symm) fun i => i.elim0) 0
  have he : Ending.early ≠ .well := by decide
  norm_num [he, average, contributions, pulse, Algebra.smul_def, Ledger.value, Ledger.total, Ledger.sum, Ledger.merge, Ledger.rollBack, ratio] at h2

/-- **C65** fails as long as no version ended well, here for `SigmaDeltaT`: the contribution of the failed version stays. -/
theorem C65_refuted_first : ∃ x : Version (fun _ : Fin 0 => 1) 1 ℂ, x.ending ≠ .well ∧
    (blank 1).delta.toPlain.Shows kinds.delta Phase.complex (fun _ _ => 0) ∧
    ¬ ((blank 1).loop kinds Phase.complex true 0 [x]).delta.toPlain.Shows kinds.delta Phase.complex (fun _ _ => 0) := by
  have sx : ∀ f : Grid (fun _ : Fin 0 => 1) 1 ℂ, (Plain.mk f false false).Shows kinds.delta Phase.complex f := fun f => (kinds.delta.view_false _ f).symm
  refine ⟨pulse 1 1 0 0 .early, by simp [pulse], sx _, fun h => ?_⟩
  have r0 : Tracked kinds.delta Phase.complex false (blank 1).delta ⟨fun _ _ => 0, [], none⟩ := .new (sx _)
  have r1 := Tracked.rollBack (Tracked.merge (some (ratio 1)) r0 rfl (sx (pulse 1 1 0 0 .early).delta)) rfl
  have h1 := C65_ledger kinds.delta Phase.complex one_pos (fun i => i.elim0) one_ne_zero false _ _ r1
  obtain ⟨f, _, hu⟩ := C63_faithful kinds.delta Phase.complex one_pos (fun i => i.elim0) one_ne_zero
    ((blank 1).loop kinds Phase.complex true 0 [pulse 1 1 0 0 .early]).delta.toPlain
  have h2 := congrFun (congrFun ((hu _ h).trans (hu _ h1).symm) fun i => i.elim0) 0
  norm_num [pulse, Algebra.smul_def, Ledger.value, Ledger.total, Ledger.sum, Ledger.merge, Ledger.rollBack, ratio] at h2

/-- **C65** fails for `Polar` if `W_Dyson` fails: it was merged as a function of time and is rolled back as a function of frequency, and the accumulated data were transformed
without the additional phase factor. -/
theorem C65_refuted_domain (mc : Bool) : ∃ xs : List (Version (fun _ : Fin 0 => 1) 2 ℂ), (∃ x ∈ xs, x.ending = .well) ∧
    ¬ ((blank 2).loop kinds Phase.complex mc 0 xs).polar.toPlain.Shows kinds.polar Phase.complex (average (contributions (Q := ℚ) (·.polar) 0 xs)) := by
  refine ⟨[pulse 2 0 0 1 .well, pulse 2 0 0 0 .w], ⟨pulse 2 0 0 1 .well, by simp, rfl⟩, fun h => ?_⟩
  have sx : ∀ f : Grid (fun _ : Fin 0 => 1) 2 ℂ, (Plain.mk f false false).Shows kinds.polar Phase.complex f := fun f => (kinds.polar.view_false _ f).symm
  have tw : ∀ (w : Merged ℚ (fun _ : Fin 0 => 1) 2 ℂ), (w.fft kinds.polar Phase.complex [.R, .T]).time = false := fun w => by
    rw [Merged.fft_time]; cases w.time <;> simp [after]
  have r0 : Tracked kinds.polar Phase.complex false (blank 2).polar ⟨fun _ _ => 0, [], none⟩ := .new (sx _)
  have r1 := Tracked.fft [.R, .T] (Tracked.fft [.K, .W] (Tracked.merge (some (ratio 1)) r0 rfl (sx (pulse 2 0 0 1 .well).polar)))
  have r2 := Tracked.fft [.K, .W] (Tracked.merge (some (ratio 2)) r1 (tw _) (sx (pulse 2 0 0 0 .w).polar))
  obtain ⟨w, hl, h1, h2, hr⟩ : ∃ w : Merged ℚ (fun _ : Fin 0 => 1) 2 ℂ,
      ((blank 2).loop kinds Phase.complex mc 0 [pulse 2 0 0 1 .well, pulse 2 0 0 0 .w]).polar = w.rollBack kinds.polar Phase.complex ∧ w.space = true ∧ w.time = true ∧
      Tracked kinds.polar Phase.complex false w _ :=
    ⟨_, by cases mc <;> rfl, by rw [Merged.fft_space]; simp [after], by rw [Merged.fft_time]; simp [after], r2⟩
  have ag := hr.agrees two_pos (fun i => i.elim0) one_ne_zero
  obtain ⟨g, hk, hg⟩ := ag.back
  have hacc := ag.accu
  have hnorm := ag.norm
  have hd := (data_in kinds.polar Phase.complex two_pos (fun i => i.elim0) one_ne_zero hg w.space w.time).1
  have hz : (pulse 2 0 0 0 .w).polar = fun _ _ => 0 := by funext r n; simp [pulse]
  rw [hz, Kind.view_zero, h1, h2] at hd
  rw [hl] at h
  unfold Merged.rollBack at h
  rw [hk] at h
  unfold Plain.Shows at h
  simp only [hacc, hnorm, hd, h1, h2] at h
  have h3 := congrFun (congrFun h fun i => i.elim0) 1
  have he : Ending.w ≠ .well := by decide
  norm_num [he, Ledger.merge, Ledger.total, Ledger.sum, ratio, average, contributions, pulse, Kind.accuView, Kind.accuToW, Kind.changeSymmetry, Kind.view, kinds,
    fft, fftn, matsubara, Kind.sigma, Algebra.smul_def, angle] at h3
  rw [Phase.complex.zero] at h3
  have h4 : Phase.complex.ph (1 / 2) = 1 := by linear_combination -h3
  obtain ⟨k, hk⟩ := (Phase.complex.one_iff _).1 h4
  have h5 : (1 : ℚ) = ((4 * k : ℤ) : ℚ) := by push_cast; linarith
  have h6 : (1 : ℤ) = 4 * k := by exact_mod_cast h5
  omega

end Feyn
