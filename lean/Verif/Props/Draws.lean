import Verif.Proof.DrawsSim
import Verif.Props.Rng
import Verif.Props.Monitor
import Verif.Props.Env

/-!
# One generator for the whole run (C91)
-/

namespace Feyn

section
variable {Q F : Type} [Field Q] [LinearOrder Q] [IsStrictOrderedRing Q] [Field F]

/-- **C91, calls.** An update that draws its words one after the other does what the update with its words at fixed places does, about which the other properties are; and it draws
as many words as the table in the specification says, never more than eight. -/
theorem C91_calls {P₀ : Params Q F} {c : Chain Q F} (hP : P₀.Wf) (hS : StartOk P₀) (h : Reach P₀ c) (op : Op) (o : Words) (n : ℕ) :
    ∃ out, runOp c.P op (fun i => o (n + i)) c.d = .ok out ∧ runOpD c.P op c.d o n = .ok (out, n + drawn c.P op (fun i => o (n + i)) c.d out) ∧
      drawn c.P op (fun i => o (n + i)) c.d out ≤ 8 := by
  obtain ⟨hw, hi⟩ := h.inv hP hS
  obtain ⟨out, e, -, -⟩ := runOp_good hw hi op (fun i => o (n + i))
  exact ⟨out, e, runOpD_eq e, drawn_le _ _ _ _ _⟩

omit [IsStrictOrderedRing Q] in
/-- **C91, what is read.** The words that a call does not draw do not matter to it. -/
theorem C91_reads {P : Params Q F} {op : Op} {d : Diag Q F} {o o' : Words} {out : Out Q F} (e : runOp P op o d = .ok out)
    (h : ∀ i < drawn P op o d out, o' i = o i) : runOp P op o' d = .ok out ∧ drawn P op o' d out = drawn P op o d out :=
  runOp_reads e h

/-- Hops from a state that satisfies the invariant. -/
theorem hopSeq_ok {c : Chain Q F} (hP : c.P.Wf) (hi : Inv c.P c.d) (o : Words) (n k : ℕ) :
    ∃ c', hop c ((hopStarts o n c k).map fun s i => o (s + i)) = .ok c' ∧ hopSeq n c o k = .ok (c', hopEnd o n c k) := by
  obtain ⟨c', -, h, -⟩ := hop_sim ((hopStarts o n c k).map fun s i => o (s + i)) c c hP hi (ChainSim.of_alike (.refl _) (Alike.refl _))
  exact ⟨c', h, hopSeq_eq h⟩

/-- **C91.** Hops on the generator. `n` hops from a reachable state never fail. They are `n` hops in the sense of the other properties, on parts of one sequence of words that follow
each other; they take at least `n` and at most `9 n` words from the generator and depend on no others. -/
theorem C91_hops {P₀ : Params Q F} {c : Chain Q F} (hP : P₀.Wf) (hS : StartOk P₀) (h : Reach P₀ c) (n : ℕ) (g : Mt) :
    ∃ c' k, hopGen n c g = .ok (c', mtSkip k g) ∧ n ≤ k ∧ k ≤ 9 * n ∧ Reach P₀ c' ∧
      (∃ starts : List ℕ, starts.length = n ∧ hop c (starts.map fun s i => rngWords g (s + i)) = .ok c') ∧
      ∀ g' : Mt, (∀ i < k, rngWords g' i = rngWords g i) → hopGen n c g' = .ok (c', mtSkip k g') := by
  obtain ⟨hw, hi⟩ := h.inv hP hS
  obtain ⟨c', h1, h2⟩ := hopSeq_ok hw hi (rngWords g) n 0
  have h3 := hopEnd_ge h1
  refine ⟨c', hopEnd (rngWords g) n c 0, ?_, by omega, by omega, reach_hops h h1, ⟨_, hopStarts_length _ _ _ _, h1⟩, fun g' hg => ?_⟩
  · unfold hopGen
    rw [h2]
    rfl
  · obtain ⟨h4, h5⟩ := hop_reads (o' := rngWords g') (k' := 0) h1 (fun i hi => by
      rw [Nat.zero_add] at hi ⊢
      exact hg i hi)
    unfold hopGen
    rw [hopSeq_eq h4, Res.ok_bind]
    dsimp only
    rw [show hopEnd (rngWords g') n c 0 = hopEnd (rngWords g) n c 0 by omega]

theorem rngWords_skip (k : ℕ) (g : Mt) (i : ℕ) : rngWords (mtSkip k g) i = rngWords g (k + i) := by
  unfold rngWords
  rw [mtWord_add]

omit [IsStrictOrderedRing Q] in
/-- Hops in two parts. -/
theorem hopSeq_add (o : Words) : ∀ (m n : ℕ) (c : Chain Q F) (k : ℕ), hopSeq (m + n) c o k = hopSeq m c o k >>= fun p => hopSeq n p.1 o p.2
  | 0, n, c, k => by rw [Nat.zero_add]; rfl
  | m + 1, n, c, k => by
    rw [show m + 1 + n = (m + n) + 1 by omega]
    show (hopOneSeq c o k >>= fun p => hopSeq (m + n) p.1 o p.2) = (hopOneSeq c o k >>= fun p => hopSeq m p.1 o p.2) >>= _
    cases hopOneSeq c o k with
    | ok p => exact hopSeq_add o m n p.1 p.2
    | abort => rfl
    | ub => rfl

/-- **C91, splitting.** Hopping `m` times and then `n` times is hopping `m + n` times: the generator is left where the next hop continues. -/
theorem C91_split {P₀ : Params Q F} {c : Chain Q F} (hP : P₀.Wf) (hS : StartOk P₀) (h : Reach P₀ c) (m n : ℕ) (g : Mt) :
    hopGen (m + n) c g = hopGen m c g >>= fun p => hopGen n p.1 p.2 := by
  obtain ⟨hw, hi⟩ := h.inv hP hS
  obtain ⟨c1, h1, h2⟩ := hopSeq_ok hw hi (rngWords g) m 0
  obtain ⟨hw1, hi1⟩ := (reach_hops h h1).inv hP hS
  obtain ⟨c2, h3, h4⟩ := hopSeq_ok hw1 hi1 (rngWords g) n (hopEnd (rngWords g) m c 0)
  obtain ⟨h5, h6⟩ := hop_reads (o' := rngWords (mtSkip (hopEnd (rngWords g) m c 0) g)) (k' := 0) h3 (fun i _ => by
    rw [Nat.zero_add, rngWords_skip])
  have h7 : hopGen m c g = .ok (c1, mtSkip (hopEnd (rngWords g) m c 0) g) := by
    unfold hopGen
    rw [h2]
    rfl
  rw [h7, Res.ok_bind]
  dsimp only
  unfold hopGen
  rw [hopSeq_add, h2, Res.ok_bind]
  dsimp only
  rw [h4, hopSeq_eq h5, Res.ok_bind, Res.ok_bind]
  dsimp only
  rw [← mtSkip_add]
  congr 3
  omega

omit [IsStrictOrderedRing Q] in
/-- Hops do not change the parameters. -/
theorem hopSeq_P {o : Words} : ∀ {n : ℕ} {c c' : Chain Q F} {k m : ℕ}, hopSeq n c o k = .ok (c', m) → c'.P = c.P
  | 0, _, _, _, _, h => by cases h; rfl
  | n + 1, c, c', k, m, h => by
    replace h : (hopOneSeq c o k >>= fun p => hopSeq n p.1 o p.2) = .ok (c', m) := h
    obtain ⟨p, h1, h⟩ := drawn_bind h
    rw [hopSeq_P h]
    replace h1 : (match selectOp c.P (urn Q (o k)) with
      | none => (pure { c with counter := c.counter + 1 } : Draw (Chain Q F))
      | some op => runOpD c.P op c.d >>= fun out => pure (c.book op out)) o (k + 1) = .ok p := h1
    cases hs : selectOp c.P (urn Q (o k)) with
    | none => rw [hs] at h1; cases h1; rfl
    | some op =>
      rw [hs] at h1
      replace h1 : (runOpD c.P op c.d o (k + 1) >>= fun q => (.ok (c.book op q.1, q.2) : Res _)) = .ok p := h1
      obtain ⟨q, -, h1⟩ := drawn_bind h1
      cases h1
      rfl

omit [IsStrictOrderedRing Q] in
theorem hopGen_P {n : ℕ} {c c' : Chain Q F} {g g' : Mt} (h : hopGen n c g = .ok (c', g')) : c'.P = c.P := by
  unfold hopGen at h
  obtain ⟨p, h1, h⟩ := drawn_bind h
  cases h
  exact hopSeq_P h1

/-- Runs on diagrams with the same content. -/
theorem hopGen_alike {ρ : Ren} {c c' : Chain Q F} (hw : c.P.Wf) (hi : Inv c.P c.d) (T : TabEq c.P c'.P) (S : Alike BSim ρ c.d c'.d) (n : ℕ) (g : Mt) :
    ∃ e e' g', hopGen n c g = .ok (e, g') ∧ hopGen n c' g = .ok (e', g') ∧ ChainSim ρ c c' e e' ∧ e.P.Wf ∧ Inv e.P e.d := by
  obtain ⟨e, e', m, h1, h2, h3, h4, h5⟩ := hopGen_sim (rngWords g) n c c' 0 hw hi (ChainSim.of_alike T S)
  refine ⟨e, e', mtSkip m g, ?_, ?_, h3, h4, h5⟩
  · unfold hopGen; rw [h1]; rfl
  · unfold hopGen; rw [h2]; rfl

/-- **C91, restart.** Save diagram and generator at any time in a state of order at least one without composite line, and read them in a new process. After every number of further
hops the two runs have the same diagram, the same files, the same statistics and the same state of the generator: nothing but the files decides how the run goes on. -/
theorem C91_restart {P₀ : Params Q F} {c : Chain Q F} (hP : P₀.Wf) (hS : StartOk P₀) (h : Reach P₀ c) (hγ : c.d.hasGamma = 0) (ho : c.d.order ≠ 0)
    {d₀ : Diag Q F} (h0 : d₀.Fresh) {D : Type} (str : Py D → Option (List Byte)) (init g : Mt) (seed : Option ℤ) :
    ∃ dict d' g', toDict c.d = .ok dict ∧ loadDiagram c.P dict d₀ = .ok d' ∧
      rngFromDict str init seed (some ((convRng D str init).cast g)) = .ok g' ∧
      ∀ b : Chain Q F, b.P = c.P → b.d = d' → ∀ n, ∃ e e' g'', hopGen n c g = .ok (e, g'') ∧ hopGen n b g' = .ok (e', g'') ∧
        SameDiagram e.d e'.d ∧ toDict e'.d = toDict e.d ∧ SameCounts c e b e' := by
  obtain ⟨hw, hi⟩ := h.inv hP hS
  obtain ⟨d', e, hR⟩ := load_relabeled c.P hi hγ h0
  have hR' := hR.of_fixed hi hγ ho
  refine ⟨_, d', g, toDict_eq hi, e, ?_, fun b h1 h2 n => ?_⟩
  · rw [rngFromDict, C90_text]
    rfl
  · obtain ⟨x, y, g'', e1, e2, T, -, hi'⟩ := hopGen_alike hw hi (c' := b) (by rw [h1]; exact .refl _) (by rw [h2]; exact hR'.alike hi hγ) n g
    exact ⟨x, y, g'', e1, e2, T.diag.same hi', T.diag.toDict hi', ⟨T.counter, T.proposed, T.accepted⟩⟩

/-- **C91, seed.** A new simulation is decided by its parameters and its seed: whatever the memory contained, the hops give the same diagrams, files and statistics, and the
generators stay equal. -/
theorem C91_seed {P : Params Q F} (hP : P.Wf) (hS : StartOk P) {d₁ d₂ : Diag Q F} (h1 : d₁.Fresh) (h2 : d₂.Fresh) {D : Type}
    (str : Py D → Option (List Byte)) (init₁ init₂ : Mt) (seed : Option ℤ) :
    ∃ x y g, buildNew P d₁ = .ok x ∧ buildNew P d₂ = .ok y ∧ rngFromDict str init₁ seed none = .ok g ∧ rngFromDict str init₂ seed none = .ok g ∧
      ∀ a b : Chain Q F, a.P = P → b.P = P → a.d = x → b.d = y → ∀ n, ∃ e e' g', hopGen n a g = .ok (e, g') ∧ hopGen n b g = .ok (e', g') ∧
        SameDiagram e.d e'.d ∧ toDict e'.d = toDict e.d ∧ SameCounts a e b e' := by
  obtain ⟨x, e1, s1⟩ := buildNew_started (P := P) h1
  have hi : Inv P x := s1.inv hP hS
  obtain ⟨y, e2, hR⟩ := load_relabeled P hi s1.hasGamma h2
  rw [s1.dict] at e2
  have hR' := hR.of_fixed hi s1.hasGamma (by rw [s1.order]; decide)
  refine ⟨x, y, rngReset (seed.getD 0), e1, e2, rfl, rfl, fun a b ha hb ha' hb' n => ?_⟩
  subst ha
  subst ha'
  obtain ⟨u, v, g', e1, e2, T, -, hi'⟩ := hopGen_alike hP hi (c' := b) (by rw [hb]; exact .refl _) (by rw [hb']; exact hR'.alike hi s1.hasGamma) n
    (rngReset (seed.getD 0))
  exact ⟨u, v, g', e1, e2, T.diag.same hi', T.diag.toDict hi', ⟨T.counter, T.proposed, T.accepted⟩⟩

section
variable [FloorRing Q] [Algebra Q F] [StarRing F]

omit [IsStrictOrderedRing Q] in
theorem Process.sweeps_append : ∀ (ns : List ℕ) (n : ℕ) (s : Process Q F), s.sweeps (ns ++ [n]) = s.sweeps ns >>= fun t => t.sweep n
  | [], n, s => by
    show (s.sweep n >>= fun t => t.sweeps []) = s.sweep n
    cases s.sweep n <;> rfl
  | m :: ns, n, s => by
    show (s.sweep m >>= fun t => t.sweeps (ns ++ [n])) = (s.sweep m >>= fun t => t.sweeps ns) >>= _
    cases s.sweep m with
    | ok t => exact Process.sweeps_append ns n t
    | abort => rfl
    | ub => rfl

/-- **C91, sweeps.** With estimators that fit the parameters, any number of sweeps from a reachable state ends, in a reachable state with the same parameters. -/
theorem C91_sweeps {P₀ : Params Q F} (hP : P₀.Wf) (hS : StartOk P₀) :
    ∀ (ns : List ℕ) (s : Process Q F), Reach P₀ s.chain → s.mon.Fits s.chain.P →
      ∃ t, s.sweeps ns = .ok t ∧ Reach P₀ t.chain ∧ t.chain.P = s.chain.P ∧ t.mon.Fits t.chain.P
  | [], s, h, hf => ⟨s, rfl, h, rfl, hf⟩
  | n :: ns, s, h, hf => by
    obtain ⟨c', k, e1, -, -, h1, -⟩ := C91_hops hP hS h n s.gen
    have hp := hopGen_P e1
    obtain ⟨m, e2, hm, -⟩ := C42_measure hP hS h1 (m := s.mon) (by rw [hp]; exact hf)
    have e : s.sweep n = .ok ⟨c', m, mtSkip k s.gen⟩ := by
      unfold Process.sweep
      rw [e1, Res.ok_bind]
      dsimp only
      rw [e2]
      rfl
    obtain ⟨t, h2, h3, h4, h5⟩ := C91_sweeps hP hS ns ⟨c', m, mtSkip k s.gen⟩ h1 hm
    refine ⟨t, ?_, h3, h4.trans hp, h5⟩
    show (s.sweep n >>= fun t => t.sweeps ns) = .ok t
    rw [e]
    exact h2

/-- The state after interruptions and the one without. -/
theorem Interrupted.alike {s : Process Q F} (hw : s.chain.P.Wf) (hi : Inv s.chain.P s.chain.d) {D : Type}
    {str : Py D → Option (List Byte)} {ns : List ℕ} {t : Process Q F} (hI : Interrupted str s ns t) :
    ∃ e ρ, s.sweeps ns = .ok e ∧ t.mon = e.mon ∧ t.gen = e.gen ∧ e.chain.P.Wf ∧ Inv e.chain.P e.chain.d ∧ t.chain.P = e.chain.P ∧
      Alike BSim ρ e.chain.d t.chain.d := by
  induction hI with
  | start => exact ⟨s, Ren.id, rfl, rfl, rfl, hw, hi, rfl, .refl _⟩
  | @sweep ns t t' n _ e1 ih =>
    obtain ⟨e, ρ, h1, h2, h3, h4, h5, h6, h7⟩ := ih
    obtain ⟨x, y, g', e2, e3, T, hx, hxi⟩ := hopGen_alike h4 h5 (by rw [h6]; exact .refl _) h7 n e.gen
    unfold Process.sweep at e1
    rw [h2, h3, e3, Res.ok_bind] at e1
    dsimp only at e1
    rw [T.diag.measure T.tab hxi] at e1
    obtain ⟨m, h8, e1⟩ := drawn_bind e1
    cases e1
    refine ⟨⟨x, m, g'⟩, ρ, ?_, rfl, rfl, hx, hxi, by rw [hopGen_P e3, hopGen_P e2, h6], T.diag⟩
    rw [Process.sweeps_append, h1, Res.ok_bind]
    unfold Process.sweep
    rw [e2, Res.ok_bind]
    dsimp only
    rw [h8]
    rfl
  | @restart ns t dict d₀ d' init g' seed k pr ac _ hγ ho hd h0 hl hg ih =>
    obtain ⟨e, ρ, h1, h2, h3, h4, h5, h6, h7⟩ := ih
    rw [h7.toDict h5, toDict_eq h5] at hd
    cases hd
    rw [h7.hasGamma] at hγ
    rw [h7.order] at ho
    obtain ⟨d'', e1, hR⟩ := load_relabeled e.chain.P h5 hγ h0
    rw [h6] at hl
    cases hl.symm.trans e1
    rw [rngFromDict, C90_text] at hg
    cases hg
    exact ⟨e, _, h1, h2, h3, h4, h5, h6, (hR.of_fixed h5 hγ ho).alike h5 hγ⟩

/-- **C91, interruptions.** However often a run is stopped and continued by new processes, its results are those of the run without interruptions: the same estimators and histograms,
the same diagram, the same file, the same state of the generator. -/
theorem C91_interruptions {P₀ : Params Q F} {s : Process Q F} (hP : P₀.Wf) (hS : StartOk P₀) (h : Reach P₀ s.chain) {D : Type}
    {str : Py D → Option (List Byte)} {ns : List ℕ} {t : Process Q F} (hI : Interrupted str s ns t) :
    ∃ e, s.sweeps ns = .ok e ∧ t.mon = e.mon ∧ t.gen = e.gen ∧ SameDiagram e.chain.d t.chain.d ∧ toDict t.chain.d = toDict e.chain.d ∧
      t.chain.d.order = e.chain.d.order ∧ t.chain.d.weight = e.chain.d.weight ∧ t.chain.d.phase = e.chain.d.phase := by
  obtain ⟨hw, hi⟩ := h.inv hP hS
  obtain ⟨e, ρ, h1, h2, h3, -, h4, -, h5⟩ := hI.alike hw hi
  exact ⟨e, h1, h2, h3, h5.same h4, h5.toDict h4, h5.order, h5.weight, h5.phase⟩

/-- **C91, after interruptions.** A run that was interrupted can always go on. -/
theorem C91_goes_on {P₀ : Params Q F} {s : Process Q F} (hP : P₀.Wf) (hS : StartOk P₀) (h : Reach P₀ s.chain) (hf : s.mon.Fits s.chain.P) {D : Type}
    {str : Py D → Option (List Byte)} {ns : List ℕ} {t : Process Q F} (hI : Interrupted str s ns t) (n : ℕ) :
    ∃ t', t.sweep n = .ok t' ∧ Interrupted str s (ns ++ [n]) t' := by
  obtain ⟨hw, hi⟩ := h.inv hP hS
  obtain ⟨e, ρ, h1, h2, h3, h4, h5, h6, h7⟩ := hI.alike hw hi
  obtain ⟨x, y, g', e2, e3, T, hx, hxi⟩ := hopGen_alike h4 h5 (by rw [h6]; exact .refl _) h7 n e.gen
  obtain ⟨e', k1, k2, k3, k4⟩ := C91_sweeps hP hS (ns ++ [n]) s h hf
  rw [Process.sweeps_append, h1, Res.ok_bind] at k1
  unfold Process.sweep at k1
  rw [e2, Res.ok_bind] at k1
  obtain ⟨m, k5, -⟩ := drawn_bind k1
  have k : t.sweep n = .ok ⟨y, m, g'⟩ := by
    unfold Process.sweep
    rw [h3, h2, e3, Res.ok_bind]
    dsimp only
    rw [T.diag.measure T.tab hxi, k5]
    rfl
  exact ⟨_, k, .sweep n hI k⟩

end
end

/-! ## Examples -/

/-- The words drawn by some calls of a run with words that are all 5. -/
def demoDrawn (os : List Words) (op : Op) : ℕ :=
  match demoRun demoP os with
  | .ok c => match runOp c.P op (fun _ => wordOf 5) c.d with
    | .ok out => drawn c.P op (fun _ => wordOf 5) c.d out
    | _ => 100
  | _ => 100

/-- In a state of order two with a worm: the second worm is refused without a word; the removal of the worm has probability 1/4 and takes one word to decide; the shift of the worm is given
up after the direction was drawn; a new interaction is accepted without a word for the decision. -/
example : demoDrawn demoPermuted .createWorm = 0 ∧ demoDrawn demoPermuted .deleteWorm = 1 ∧ demoDrawn demoPermuted .moveWormG = 1 ∧
    demoDrawn demoPermuted .addInteraction = 5 := by
  decide +kernel

/-- In the first state of a simulation. -/
example : demoDrawn [] .createWorm = 3 ∧ demoDrawn [] .deleteWorm = 0 ∧ demoDrawn [] .changeTau = 2 ∧ demoDrawn [] .changeRLoop = 4 ∧
    demoDrawn [] .toOrder0 = 1 := by
  decide +kernel

/-- A thousand hops with the generator of seed 7. -/
example : ∃ c c' k, Reach demoP c ∧ hopGen 1000 c (rngReset 7) = .ok (c', mtSkip k (rngReset 7)) ∧ 1000 ≤ k ∧ k ≤ 9000 := by
  obtain ⟨c, h, -⟩ := demo_reach (P := demoP) demoPermuted _ (by decide +kernel : (demoRun demoP demoPermuted).test
    (fun c => c.d.order == 2) = true)
  obtain ⟨c', k, e, h1, h2, -⟩ := C91_hops demoP_wf demoP_start h 1000 (rngReset 7)
  exact ⟨c, c', k, h, e, h1, h2⟩

/-- A run that is interrupted at once, in a state of order two with a worm, and then makes sweeps of 1000 and 10 hops. -/
example {D : Type} (str : Py D → Option (List Byte)) : ∃ s t : Process ℚ ℚ, Reach demoP s.chain ∧ s.chain.d.order = 2 ∧ s.chain.d.worm.exist = true ∧
    Interrupted str s [1000, 10] t := by
  obtain ⟨c, e0, hc⟩ := Res.test_ok (by decide +kernel : (demoRun demoP demoPermuted).test
    (fun c => c.d.order == 2 && c.d.hasGamma == 0 && c.d.worm.exist) = true)
  have h := demoRun_reach e0
  have hp : c.P = demoP := by
    unfold demoRun startChain at e0
    obtain ⟨c0, e1, e0⟩ := drawn_bind e0
    obtain ⟨d, -, e1⟩ := drawn_bind e1
    cases e1
    rw [hop_P e0]
  simp only [Bool.and_eq_true, beq_iff_eq] at hc
  obtain ⟨⟨h2, h0⟩, hx⟩ := hc
  obtain ⟨dict, d', g', k1, k2, k3, k4⟩ := C91_restart demoP_wf demoP_start h h0 (by rw [h2]; decide) demoRaw2_fresh str (rngReset 0) (rngReset 7) none
  let b : Chain ℚ ℚ := ⟨c.P, d', 0, fun _ _ => 0, fun _ _ => 0⟩
  have i1 : Interrupted str ⟨c, demoMonitor, rngReset 7⟩ [] ⟨b, demoMonitor, g'⟩ :=
    .restart dict demoRaw2 d' (rngReset 0) g' none 0 _ _ .start h0 (by show c.d.order ≠ 0; rw [h2]; decide) k1 demoRaw2_fresh k2 k3
  have hf : demoMonitor.Fits c.P := by rw [hp]; exact demoMonitor_fits
  obtain ⟨t1, -, i2⟩ := C91_goes_on demoP_wf demoP_start (s := ⟨c, demoMonitor, rngReset 7⟩) h hf i1 1000
  obtain ⟨t2, -, i3⟩ := C91_goes_on demoP_wf demoP_start (s := ⟨c, demoMonitor, rngReset 7⟩) h hf i2 10
  exact ⟨_, t2, h, h2, hx, i3⟩

end Feyn
