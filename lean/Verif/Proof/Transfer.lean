import Verif.Proof.SimAdd
import Verif.Proof.RevMain

/-!
# The same state in other cells: each move has a counterpart with the same acceptance ratio

`BSet π b b'`: the containers hold corresponding components, in any order. With it the results of `Proof/Sim*` apply to
diagrams that are the same state in the sense of `SameState`.
-/

set_option linter.unusedSectionVars false
set_option linter.unusedSimpArgs false

namespace Feyn

/-- Containers of corresponding components; the order may differ. -/
structure BSet (π : Equiv.Perm ℕ) (b b' : Bundle) : Prop where
  wf : b.Wf
  wf' : b'.Wf
  avail : b'.avail = b.avail
  live : ∀ p, π p ∈ b'.live ↔ p ∈ b.live

theorem BSet.exist {π : Equiv.Perm ℕ} (hπ : ∀ p, MAX_BUNDLE ≤ p → π p = p) {b b' : Bundle} (h : BSet π b b') (p : ℕ) :
    b'.exist (π p) = b.exist p := by
  unfold Bundle.exist
  have e20 : π p = 20 ↔ p = 20 := by
    constructor
    · intro q
      have := hπ 20 le_rfl
      exact π.injective (q.trans this.symm)
    · rintro rfl
      exact hπ 20 le_rfl
  simp only [e20, perm_lt hπ]
  split_ifs with h1 h2
  · rfl
  · have := h.live p
    simp only [Bundle.mem_live, perm_lt hπ, h2, true_and] at this
    simp only [this]
  · rfl

theorem BSet.removes : Removes BSet := by
  intro π b b' hπ h p
  by_cases hp : p ∈ b.live
  · obtain ⟨c, e, hw, hl, ha⟩ := Bundle.remove_spec h.wf hp
    obtain ⟨c', e', hw', hl', ha'⟩ := Bundle.remove_spec h.wf' ((h.live p).2 hp)
    rw [e, e']
    refine ⟨hw, hw', by rw [ha, ha', h.avail], fun q => ?_⟩
    rw [hl, hl', Finset.mem_erase, Finset.mem_erase, h.live]
    simp
  · unfold Bundle.remove
    rw [h.exist hπ]
    refine .same _ fun x hx => ?_
    have : x = false := by
      unfold Bundle.exist at hx
      split_ifs at hx with h1 h2
      · cases hx; rfl
      · cases hx
        simp only [Bundle.mem_live, h2, true_and] at hp
        simpa using hp
    rw [this]
    trivial

theorem BSet.adds : ∀ (n : ℕ) {π : Equiv.Perm ℕ} {b b' : Bundle}, (∀ p, MAX_BUNDLE ≤ p → π p = p) → BSet π b b' →
    b.avail + n ≤ MAX_BUNDLE → ∃ σ : Equiv.Perm ℕ, (∀ p, MAX_BUNDLE ≤ p → σ p = p) ∧ (∀ p ∈ b.live, σ p = π p) ∧
      Adds BSet σ n b b' := by
  intro n
  induction n with
  | zero => intro π b b' hπ h _; exact ⟨π, hπ, fun _ _ => rfl, h⟩
  | succ n ih =>
    intro π b b' hπ h hn
    obtain ⟨p, c, e, hw, hp, hpl, hl, ha, -⟩ := Bundle.add_spec h.wf (by omega)
    obtain ⟨p', c', e', hw', hp', hpl', hl', ha', -⟩ := Bundle.add_spec h.wf' (by rw [h.avail]; omega)
    have hpπ : π p ∉ b'.live := fun q => hpl ((h.live p).1 q)
    set τ : Equiv.Perm ℕ := π.trans (Equiv.swap (π p) p') with hτ
    have τp : τ p = p' := by simp [hτ]
    have τl : ∀ q ∈ b.live, τ q = π q := by
      intro q hq
      have h1 : π q ≠ π p := fun z => hpl (π.injective z ▸ hq)
      have h2 : π q ≠ p' := fun z => hpl' (z ▸ (h.live q).2 hq)
      simp [hτ, Equiv.swap_apply_of_ne_of_ne h1 h2]
    have τfix : ∀ q, MAX_BUNDLE ≤ q → τ q = q := by
      intro q hq
      have h0 := hπ q hq
      have h1 : q ≠ π p := by
        have := (perm_lt hπ p).2 hp
        omega
      have h2 : q ≠ p' := by omega
      simp [hτ, h0, Equiv.swap_apply_of_ne_of_ne h1 h2]
    have hB : BSet τ c c' := by
      refine ⟨hw, hw', by rw [ha, ha', h.avail], fun q => ?_⟩
      rw [hl, hl', Finset.mem_insert, Finset.mem_insert]
      by_cases hq : q = p
      · subst hq; simp [τp]
      · have hne : τ q ≠ p' := fun z => hq (τ.injective (z.trans τp.symm))
        simp only [hne, hq, false_or]
        by_cases hql : q ∈ b.live
        · rw [τl q hql, h.live]
        · simp only [hql, iff_false]
          intro hz
          have h1 : π q ≠ π p := fun z => hq (π.injective z)
          by_cases h2 : π q = p'
          · have : τ q = π p := by simp [hτ, h2]
            rw [this] at hz
            exact hpπ hz
          · have : τ q = π q := by simp [hτ, Equiv.swap_apply_of_ne_of_ne h1 h2]
            rw [this] at hz
            exact hql ((h.live q).1 hz)
    obtain ⟨σ, σfix, σl, hA⟩ := ih τfix hB (by omega)
    refine ⟨σ, σfix, fun q hq => ?_, p, c, c', e, ?_, hl, hA⟩
    · rw [σl q (by rw [hl]; exact Finset.mem_insert_of_mem hq), τl q hq]
    · rw [e', σl p (by rw [hl]; exact Finset.mem_insert_self _ _), τp]

theorem BSet.names {π : Equiv.Perm ℕ} {b b' : Bundle} (h : BSet π b b') {N : ℕ} (hN : b.avail ≤ N) : NameRel N π b b' := by
  refine ⟨fun p hp => ?_, fun p hp q hq => ?_⟩
  · have h1 := (Bundle.mem_live.1 hp).2
    have h2 := (Bundle.mem_live.1 ((h.live p).2 hp)).2
    have := h.avail
    omega
  · constructor
    · intro e
      have := Bundle.name_inj h.wf' (Bundle.live_lt ((h.live p).2 hp)) (Bundle.live_lt ((h.live q).2 hq)) e
      rw [π.injective this]
    · intro e
      rw [Bundle.name_inj h.wf (Bundle.live_lt hp) (Bundle.live_lt hq) e]

theorem BSet.bijOn {π : Equiv.Perm ℕ} {b b' : Bundle} (h : BSet π b b') : Set.BijOn π b.live b'.live := by
  refine ⟨fun p hp => (h.live p).2 hp, π.injective.injOn, fun q hq => ?_⟩
  refine ⟨π.symm q, ?_, by simp⟩
  rw [Finset.mem_coe, ← h.live]
  simpa using hq

/-- A map between sets of cells extends to a permutation. -/
theorem exists_perm {L M : Finset ℕ} (hL : ∀ p ∈ L, p < MAX_BUNDLE) (hM : ∀ p ∈ M, p < MAX_BUNDLE) {f : ℕ → ℕ} (hf : Set.BijOn f L M) :
    ∃ π : Equiv.Perm ℕ, (∀ p, MAX_BUNDLE ≤ p → π p = p) ∧ (∀ p ∈ L, π p = f p) ∧ ∀ p, π p ∈ M ↔ p ∈ L := by
  have : Fintype {p : ℕ // p < MAX_BUNDLE} := Fintype.ofEquiv _ Fin.equivSubtype
  obtain ⟨g, hg⟩ := Finset.exists_equiv_extend_of_card_eq (α := {p : ℕ // p < MAX_BUNDLE}) (t := Finset.range MAX_BUNDLE)
    (by rw [← Fintype.card_congr Fin.equivSubtype]; simp) (s := Finset.univ.filter fun x : {p : ℕ // p < MAX_BUNDLE} => x.1 ∈ L) (f := fun x => f x.1) (by
      intro y hy
      obtain ⟨x, hx, rfl⟩ := Finset.mem_image.1 hy
      exact Finset.mem_range.2 (hM _ (hf.mapsTo (Finset.mem_filter.1 hx).2))) (by
      intro x hx y hy e
      simp only [Finset.coe_filter, Finset.mem_univ, true_and, Set.mem_ofPred_eq] at hx hy
      exact Subtype.ext (hf.injOn hx hy e))
  let e : {p : ℕ // p < MAX_BUNDLE} ≃ {p : ℕ // p < MAX_BUNDLE} := g.trans (Equiv.subtypeEquivRight fun p => by simp)
  let π : Equiv.Perm ℕ := Equiv.Perm.ofSubtype e
  have h1 : ∀ p ∈ L, π p = f p := by
    intro p hp
    have hlt := hL p hp
    rw [Equiv.Perm.ofSubtype_apply_of_mem e hlt]
    exact hg ⟨p, hlt⟩ (by simp [hp])
  refine ⟨π, fun p hp => Equiv.Perm.ofSubtype_apply_of_not_mem e (not_lt.2 hp), h1, fun p => ?_⟩
  constructor
  · intro hp
    obtain ⟨q, hq, e⟩ := hf.surjOn hp
    rw [← h1 q hq] at e
    rw [← π.injective e]; exact hq
  · intro hp
    rw [h1 p hp]; exact hf.mapsTo hp


section
variable {Q F : Type} [Field Q] [LinearOrder Q] [IsStrictOrderedRing Q] [Field F]
variable {P : Params Q F} {d d' d'' : Diag Q F} {ρ σ : Ren}

/-! ### The same state -/

theorem SameState.refl (d : Diag Q F) : SameState d d id id id where
  order := rfl
  weight := rfl
  phase := rfl
  sfl := rfl
  ver := Set.bijOn_id _
  g := Set.bijOn_id _
  w := Set.bijOn_id _
  nVer := rfl
  nG := rfl
  nW := rfl
  vG := fun _ _ _ => rfl
  vW := fun _ _ => rfl
  vDir := fun _ _ => rfl
  gV := fun _ _ _ => rfl
  wV := fun _ _ _ => rfl
  co := fun _ _ _ => ⟨rfl, rfl, rfl⟩
  gWt := fun _ _ _ => rfl
  wWt := fun _ _ _ => rfl
  gK := fun _ _ => rfl
  wK := fun _ _ => rfl
  gHash := rfl
  wHash := rfl
  gFl := fun _ _ => ⟨rfl, rfl⟩
  wFl := fun _ _ => ⟨rfl, rfl, rfl, rfl⟩
  exist := rfl
  worm := fun _ => ⟨rfl, rfl, rfl, rfl, rfl⟩
  measG := rfl
  gMeasure := fun _ => rfl
  wMeasure := fun _ => rfl
  hasGamma := rfl
  ext := fun _ => rfl

theorem SameState.trans {fV fG fW hV hG hW : ℕ → ℕ} (s : SameState d d' fV fG fW) (t : SameState d' d'' hV hG hW) :
    SameState d d'' (hV ∘ fV) (hG ∘ fG) (hW ∘ fW) where
  order := t.order.trans s.order
  weight := t.weight.trans s.weight
  phase := t.phase.trans s.phase
  sfl := t.sfl.trans s.sfl
  ver := t.ver.comp s.ver
  g := t.g.comp s.g
  w := t.w.comp s.w
  nVer := t.nVer.trans s.nVer
  nG := t.nG.trans s.nG
  nW := t.nW.trans s.nW
  vG := fun v hv e => by simp only [Function.comp, t.vG _ (s.ver.mapsTo hv), s.vG v hv]
  vW := fun v hv => by simp only [Function.comp, t.vW _ (s.ver.mapsTo hv), s.vW v hv]
  vDir := fun v hv => (t.vDir _ (s.ver.mapsTo hv)).trans (s.vDir v hv)
  gV := fun v hv e => by simp only [Function.comp, t.gV _ (s.g.mapsTo hv), s.gV v hv]
  wV := fun v hv e => by simp only [Function.comp, t.wV _ (s.w.mapsTo hv), s.wV v hv]
  co := fun ho v hv => by
    have h1 := s.co ho v hv
    have h2 := t.co (by rw [s.order]; exact ho) _ (s.ver.mapsTo hv)
    exact ⟨h2.1.trans h1.1, h2.2.1.trans h1.2.1, h2.2.2.trans h1.2.2⟩
  gWt := fun ho g hg => (t.gWt (by rw [s.order]; exact ho) _ (s.g.mapsTo hg)).trans (s.gWt ho g hg)
  wWt := fun ho g hg => (t.wWt (by rw [s.order]; exact ho) _ (s.w.mapsTo hg)).trans (s.wWt ho g hg)
  gK := fun g hg => (t.gK _ (s.g.mapsTo hg)).trans (s.gK g hg)
  wK := fun g hg => (t.wK _ (s.w.mapsTo hg)).trans (s.wK g hg)
  gHash := t.gHash.trans s.gHash
  wHash := t.wHash.trans s.wHash
  gFl := fun g hg => by
    have h1 := s.gFl g hg
    have h2 := t.gFl _ (s.g.mapsTo hg)
    exact ⟨h2.1.trans h1.1, h2.2.trans h1.2⟩
  wFl := fun g hg => by
    have h1 := s.wFl g hg
    have h2 := t.wFl _ (s.w.mapsTo hg)
    exact ⟨h2.1.trans h1.1, h2.2.1.trans h1.2.1, h2.2.2.1.trans h1.2.2.1, h2.2.2.2.trans h1.2.2.2⟩
  exist := t.exist.trans s.exist
  worm := fun e => by
    obtain ⟨a1, a2, a3, a4, a5⟩ := s.worm e
    obtain ⟨b1, b2, b3, b4, b5⟩ := t.worm (s.exist.trans e)
    exact ⟨by rw [b1, a1]; rfl, by rw [b2, a2]; rfl, b3.trans a3, b4.trans a4, b5.trans a5⟩
  measG := t.measG.trans s.measG
  gMeasure := fun e => by rw [t.gMeasure (s.measG.trans e), s.gMeasure e]; rfl
  wMeasure := fun e => by rw [t.wMeasure (s.measG.trans e), s.wMeasure e]; rfl
  hasGamma := t.hasGamma.trans s.hasGamma
  ext := fun e => (t.ext (by rw [s.hasGamma]; exact e)).trans (s.ext e)

theorem SameUpToCells.refl (d : Diag Q F) : SameUpToCells d d := ⟨_, _, _, .refl d⟩

theorem SameUpToCells.trans (s : SameUpToCells d d') (t : SameUpToCells d' d'') : SameUpToCells d d'' := by
  obtain ⟨_, _, _, s⟩ := s
  obtain ⟨_, _, _, t⟩ := t
  exact ⟨_, _, _, s.trans t⟩

/-- The cells can be renamed by permutations. -/
theorem SameState.perm {fV fG fW : ℕ → ℕ} (s : SameState d d' fV fG fW) (hi : Inv P d) :
    ∃ ρ : Ren, SameState d d' ρ.V ρ.G ρ.W ∧ (∀ p, ρ.V p ∈ d'.Ver.live ↔ p ∈ d.Ver.live) ∧
      (∀ p, ρ.G p ∈ d'.G.live ↔ p ∈ d.G.live) ∧ ∀ p, ρ.W p ∈ d'.W.live ↔ p ∈ d.W.live := by
  obtain ⟨πV, fxV, eV, lV⟩ := exists_perm (fun p hp => Bundle.live_lt hp) (fun p hp => Bundle.live_lt hp) s.ver
  obtain ⟨πG, fxG, eG, lG⟩ := exists_perm (fun p hp => Bundle.live_lt hp) (fun p hp => Bundle.live_lt hp) s.g
  obtain ⟨πW, fxW, eW, lW⟩ := exists_perm (fun p hp => Bundle.live_lt hp) (fun p hp => Bundle.live_lt hp) s.w
  refine ⟨⟨πV, πG, πW, fxV, fxG, fxW⟩, ?_, lV, lG, lW⟩
  have T := hi.topo
  exact { s with
    ver := s.ver.congr fun p hp => (eV p hp).symm
    g := s.g.congr fun p hp => (eG p hp).symm
    w := s.w.congr fun p hp => (eW p hp).symm
    vG := fun v hv e => by rw [eV v hv, eG _ (T.vG_mem v hv e), s.vG v hv]
    vW := fun v hv => by rw [eV v hv, eW _ (T.vW_mem v hv), s.vW v hv]
    vDir := fun v hv => by rw [eV v hv, s.vDir v hv]
    gV := fun v hv e => by rw [eG v hv, eV _ (T.gV_mem v hv e), s.gV v hv]
    wV := fun v hv e => by rw [eW v hv, eV _ (T.wV_mem v hv e), s.wV v hv]
    co := fun ho v hv => by rw [eV v hv]; exact s.co ho v hv
    gWt := fun ho g hg => by rw [eG g hg]; exact s.gWt ho g hg
    wWt := fun ho g hg => by rw [eW g hg]; exact s.wWt ho g hg
    gK := fun g hg => by rw [eG g hg]; exact s.gK g hg
    wK := fun g hg => by rw [eW g hg]; exact s.wK g hg
    gFl := fun g hg => by rw [eG g hg]; exact s.gFl g hg
    wFl := fun g hg => by rw [eW g hg]; exact s.wFl g hg
    worm := fun e => by
      rw [eV _ (hi.worm.ira_mem e), eV _ (hi.worm.masha_mem e)]; exact s.worm e
    gMeasure := fun e => by rw [eG _ (hi.meas.g_mem e)]; exact s.gMeasure e
    wMeasure := fun e => by rw [eW _ (hi.meas.w_mem e)]; exact s.wMeasure e }

theorem Alike.same' (S : Alike BSet ρ d d') : SameState d d' ρ.V ρ.G ρ.W where
  order := S.order
  weight := S.weight
  phase := S.phase
  sfl := S.sfl
  ver := S.bV.bijOn
  g := S.bG.bijOn
  w := S.bW.bijOn
  nVer := S.bV.avail
  nG := S.bG.avail
  nW := S.bW.avail
  vG := S.vG
  vW := S.vW
  vDir := S.vDir
  gV := S.gV
  wV := S.wV
  co := fun _ v hv => ⟨S.r v hv, S.tau v hv, S.spin v hv⟩
  gWt := fun _ => S.gWt
  wWt := fun _ => S.wWt
  gK := S.gK
  wK := S.wK
  gHash := S.gHash
  wHash := S.wHash
  gFl := fun g hg => ⟨S.gMeas g hg, S.gGam g hg⟩
  wFl := fun w hw => ⟨S.wMeas w hw, S.wWorm w hw, S.wDelta w hw, S.wGam w hw⟩
  exist := S.exist
  worm := fun e => ⟨S.ira e, S.masha e, S.k e, S.dSpin e, S.wormWt e⟩
  measG := S.measG
  gMeasure := S.gMeasure
  wMeasure := S.wMeasure
  hasGamma := S.hasGamma
  ext := S.ext

/-- The same state in the sense of `SameState`, in a sector with positions and times. -/
theorem SameUpToCells.alike (s : SameUpToCells d d') (hi : Inv P d) (hi' : Inv P d') (ho : d.order ≠ 0) :
    ∃ ρ : Ren, Alike BSet ρ d d' := by
  obtain ⟨fV, fG, fW, s⟩ := s
  obtain ⟨ρ, s, lV, lG, lW⟩ := s.perm hi
  refine ⟨ρ, ?_⟩
  have hand : d.hasGamma ≠ 0 → d'.vin = d.vin.act ρ ∧ d'.vout = d.vout.act ρ := by
    intro h0
    have hle := hi.gamma.le
    by_cases h1 : d.hasGamma = 1
    · obtain ⟨g, hg, hgg⟩ := hi.gamma.g_ex h1
      obtain ⟨-, e1, e2⟩ := (hi.gamma.g_flag g hg).1 hgg
      have hg' := (lG g).2 hg
      have hgg' : d'.fl.gGam (ρ.G g) = true := by rw [(s.gFl g hg).2]; exact hgg
      obtain ⟨-, e1', e2'⟩ := (hi'.gamma.g_flag _ hg').1 hgg'
      rw [e1, e2, e1', e2']
      exact ⟨rfl, rfl⟩
    · obtain ⟨g, hg, hgg⟩ := hi.gamma.w_ex (by omega)
      obtain ⟨-, e1, e2⟩ := (hi.gamma.w_flag g hg).1 hgg
      have hg' := (lW g).2 hg
      have hgg' : d'.fl.wGam (ρ.W g) = true := by rw [(s.wFl g hg).2.2.2]; exact hgg
      obtain ⟨-, e1', e2'⟩ := (hi'.gamma.w_flag _ hg').1 hgg'
      rw [e1, e2, e1', e2']
      exact ⟨rfl, rfl⟩
  exact {
    order := s.order, phase := s.phase, weight := s.weight, sfl := s.sfl
    bG := ⟨hi.count.gWf, hi'.count.gWf, s.nG, lG⟩
    bW := ⟨hi.count.wWf, hi'.count.wWf, s.nW, lW⟩
    bV := ⟨hi.count.verWf, hi'.count.verWf, s.nVer, lV⟩
    vG := s.vG, vW := s.vW, vDir := s.vDir, gV := s.gV, wV := s.wV
    r := fun v hv => (s.co ho v hv).1
    tau := fun v hv => (s.co ho v hv).2.1
    spin := fun v hv => (s.co ho v hv).2.2
    gK := s.gK, wK := s.wK, gHash := s.gHash, wHash := s.wHash
    gMeas := fun g hg => (s.gFl g hg).1
    gGam := fun g hg => (s.gFl g hg).2
    wMeas := fun g hg => (s.wFl g hg).1
    wWorm := fun g hg => (s.wFl g hg).2.1
    wDelta := fun g hg => (s.wFl g hg).2.2.1
    wGam := fun g hg => (s.wFl g hg).2.2.2
    gWt := s.gWt ho, wWt := s.wWt ho
    exist := s.exist
    ira := fun e => (s.worm e).1
    masha := fun e => (s.worm e).2.1
    k := fun e => (s.worm e).2.2.1
    dSpin := fun e => (s.worm e).2.2.2.1
    wormWt := fun e => (s.worm e).2.2.2.2
    measG := s.measG, gMeasure := s.gMeasure, wMeasure := s.wMeasure
    hasGamma := s.hasGamma, ext := s.ext
    vin := fun h => (hand h).1, vout := fun h => (hand h).2 }

/-- Only the renaming of the components matters. -/
theorem Alike.congr (S : Alike BSet ρ d d') (hi : Inv P d) (hV : ∀ p ∈ d.Ver.live, σ.V p = ρ.V p)
    (hG : ∀ p ∈ d.G.live, σ.G p = ρ.G p) (hW : ∀ p ∈ d.W.live, σ.W p = ρ.W p) : Alike BSet σ d d' := by
  have T := hi.topo
  have key : ∀ {π τ : Equiv.Perm ℕ} {b b' : Bundle}, BSet π b b' → (∀ p ∈ b.live, τ p = π p) → BSet τ b b' := by
    intro π τ b b' h he
    refine ⟨h.wf, h.wf', h.avail, fun p => ⟨fun hp => ?_, fun hp => by rw [he p hp]; exact (h.live p).2 hp⟩⟩
    obtain ⟨q, hq, e⟩ := h.bijOn.surjOn hp
    rw [← he q hq] at e
    rw [← τ.injective e]; exact hq
  have hand : d.hasGamma ≠ 0 → d.vin.act σ = d.vin.act ρ ∧ d.vout.act σ = d.vout.act ρ := by
    intro h0
    have hle := hi.gamma.le
    by_cases h1 : d.hasGamma = 1
    · obtain ⟨g, hg, hgg⟩ := hi.gamma.g_ex h1
      obtain ⟨-, e1, e2⟩ := (hi.gamma.g_flag g hg).1 hgg
      rw [e1, e2]
      exact ⟨by simp only [Handle.act, hG g hg], by simp only [Handle.act, hG g hg]⟩
    · obtain ⟨g, hg, hgg⟩ := hi.gamma.w_ex (by omega)
      obtain ⟨-, e1, e2⟩ := (hi.gamma.w_flag g hg).1 hgg
      rw [e1, e2]
      exact ⟨by simp only [Handle.act, hW g hg], by simp only [Handle.act, hW g hg]⟩
  exact { S with
    bV := key S.bV hV, bG := key S.bG hG, bW := key S.bW hW
    vG := fun v hv e => by rw [hV v hv, hG _ (T.vG_mem v hv e), S.vG v hv]
    vW := fun v hv => by rw [hV v hv, hW _ (T.vW_mem v hv), S.vW v hv]
    vDir := fun v hv => by rw [hV v hv, S.vDir v hv]
    gV := fun v hv e => by rw [hG v hv, hV _ (T.gV_mem v hv e), S.gV v hv]
    wV := fun v hv e => by rw [hW v hv, hV _ (T.wV_mem v hv e), S.wV v hv]
    r := fun v hv => by rw [hV v hv, S.r v hv]
    tau := fun v hv => by rw [hV v hv, S.tau v hv]
    spin := fun v hv => by rw [hV v hv, S.spin v hv]
    gK := fun v hv => by rw [hG v hv, S.gK v hv]
    wK := fun v hv => by rw [hW v hv, S.wK v hv]
    gMeas := fun v hv => by rw [hG v hv, S.gMeas v hv]
    gGam := fun v hv => by rw [hG v hv, S.gGam v hv]
    wMeas := fun v hv => by rw [hW v hv, S.wMeas v hv]
    wWorm := fun v hv => by rw [hW v hv, S.wWorm v hv]
    wDelta := fun v hv => by rw [hW v hv, S.wDelta v hv]
    wGam := fun v hv => by rw [hW v hv, S.wGam v hv]
    gWt := fun v hv => by rw [hG v hv, S.gWt v hv]
    wWt := fun v hv => by rw [hW v hv, S.wWt v hv]
    ira := fun e => by rw [hV _ (hi.worm.ira_mem e), S.ira e]
    masha := fun e => by rw [hV _ (hi.worm.masha_mem e), S.masha e]
    gMeasure := fun e => by rw [hG _ (hi.meas.g_mem e), S.gMeasure e]
    wMeasure := fun e => by rw [hW _ (hi.meas.w_mem e), S.wMeasure e]
    vin := fun e => by rw [(hand e).1, S.vin e]
    vout := fun e => by rw [(hand e).2, S.vout e] }

/-! ### Moves -/

/-- The corresponding move. -/
def Move.act (ρ : Ren) : Move Q → Move Q
  | .createWorm w k s => .createWorm (ρ.W w) k s
  | .changeTau v t => .changeTau (ρ.V v) t
  | .changeRLoop v r => .changeRLoop (ρ.V v) r
  | .g2w w => .g2w (ρ.W w)
  | .w2g g => .w2g (ρ.G g)
  | .delta2cont w t => .delta2cont (ρ.W w) t
  | .cont2delta w => .cont2delta (ρ.W w)
  | .toGGGammaG g t => .toGGGammaG (ρ.G g) t
  | .toWWGammaW w t r => .toWWGammaW (ρ.W w) t r
  | m => m

theorem Move.act_valid {m : Move Q} (hm : m.Valid P d) (S : Alike BSet ρ d d') : (m.act ρ).Valid P d' := by
  obtain ⟨h1, h2⟩ := hm
  cases m
  case createWorm => exact ⟨h1, (S.bW.live _).2 h2.1, h2.2⟩
  case changeTau => exact ⟨h1, (S.bV.live _).2 h2.1, h2.2⟩
  case changeRLoop => exact ⟨h1, (S.bV.live _).2 h2.1, h2.2⟩
  case g2w => exact ⟨h1, (S.bW.live _).2 h2⟩
  case w2g => exact ⟨h1, (S.bG.live _).2 h2⟩
  case delta2cont => exact ⟨h1, (S.bW.live _).2 h2.1, h2.2⟩
  case cont2delta => exact ⟨h1, (S.bW.live _).2 h2⟩
  case toGGGammaG => exact ⟨h1, (S.bG.live _).2 h2.1, h2.2⟩
  case toWWGammaW => exact ⟨h1, (S.bW.live _).2 h2.1, h2.2⟩
  all_goals exact ⟨h1, h2⟩

theorem Inv.W_le (hP : P.Wf) (hi : Inv P d) : d.W.avail ≤ 10 := by
  have h1 := hi.count.n_le
  have h2 := hP.lt_max
  omega

theorem Move.run_sim (hP : P.Wf) (hi : Inv P d) (S : Alike BSet ρ d d') {m : Move Q} (hm : m.Valid P d)
    (h0 : m.op ≠ .toOrder0) (h1 : m.op ≠ .backToOrder1) (u : Q) :
    ∃ σ : Ren, Alike BSet σ d d' ∧ Res.Rel (OutSim BSet σ) (m.run P d u) ((m.act σ).run P d' u) := by
  have T := TabEq.refl P
  cases m
  case createWorm w k s =>
    refine ⟨ρ, S, ?_⟩
    simp only [Move.run, Move.act]
    exact .ite (by rw [S.order, S.exist]) (fun _ => skip_sim S) fun _ => createWormCore_sim T hi S hm.2.1 _ _ _
  case deleteWorm =>
    refine ⟨ρ, S, ?_⟩
    simp only [Move.run, Move.act]
    refine .ite (by rw [S.order, S.exist]) (fun _ => skip_sim S) fun c => ?_
    simp only [not_or, Bool.not_eq_false] at c
    exact deleteWormCore_sim T hi S c.2 _
  case moveWormG =>
    refine ⟨ρ, S, ?_⟩
    simp only [Move.run, Move.act]
    refine .ite (by rw [S.order, S.exist]) (fun _ => skip_sim S) fun c => ?_
    simp only [not_or, Bool.not_eq_false] at c
    exact moveWormGCore_sim T hi S c.2 _ _
  case moveWormW =>
    refine ⟨ρ, S, ?_⟩
    simp only [Move.run, Move.act]
    refine .ite (by rw [S.order, S.exist]) (fun _ => skip_sim S) fun c => ?_
    simp only [not_or, Bool.not_eq_false] at c
    exact moveWormWCore_sim T hi S c.2 _
  case reconnect =>
    refine ⟨ρ, S, ?_⟩
    simp only [Move.run, Move.act]
    refine .ite (by rw [S.order, S.exist]) (fun _ => skip_sim S) fun c => ?_
    simp only [not_or, Bool.not_eq_false] at c
    have ha := hi.worm.ira_mem c.2
    have hb := hi.worm.masha_mem c.2
    simp only [S.ira c.2, S.masha c.2, deref_V, deref_live ha, deref_live hb, Res.ok_bind, S.r _ ha, S.r _ hb]
    exact .ite Iff.rfl (fun _ => skip_sim S) fun _ => reconnectCore_sim T hi S c.2 _ _
  case add δ k dir dirW tA tB =>
    by_cases c : d.worm.exist = false
    · refine ⟨ρ, S, ?_⟩
      simp only [Move.run, Move.act]
      rw [if_pos c, if_pos (S.exist.trans c)]
      exact skip_sim S
    by_cases c2 : d.order = 0 ∨ d.order ≥ P.maxOrd
    · refine ⟨ρ, S, ?_⟩
      simp only [Move.run, Move.act]
      exact .ite (by rw [S.exist]) (fun q => absurd q c) fun _ => .ite (by rw [S.order]) (fun _ => skip_sim S) fun q => absurd c2 q
    have c' := c
    simp only [Bool.not_eq_false] at c'
    obtain ⟨r1, r2, r3⟩ := hi.room hP c' (by omega)
    obtain ⟨πV, fV, lV, aV⟩ := BSet.adds 2 ρ.fixV S.bV r1
    obtain ⟨πG, fG, lG, aG⟩ := BSet.adds 2 ρ.fixG S.bG r2
    obtain ⟨πW, fW, lW, aW⟩ := BSet.adds 1 ρ.fixW S.bW r3
    have S' : Alike BSet ⟨πV, πG, πW, fV, fG, fW⟩ d d' := S.congr hi lV lG lW
    refine ⟨_, S', ?_⟩
    simp only [Move.run, Move.act]
    refine .ite (by rw [S.exist]) (fun q => absurd q c) fun _ => .ite (by rw [S.order]) (fun q => absurd q c2) fun _ => ?_
    exact addCore_sim T hi S' c' aV aG aW _ _ _ _ hm.2.2.1 hm.2.2.2.1 _
  case del δ dir =>
    refine ⟨ρ, S, ?_⟩
    simp only [Move.run, Move.act]
    refine .ite (by rw [S.exist]) (fun _ => skip_sim S) fun c => ?_
    simp only [Bool.not_eq_false] at c
    exact .ite (by rw [S.order]) (fun _ => skip_sim S) fun _ => delCore_sim BSet.removes T hi S c _ _ _
  case changeTau v t =>
    refine ⟨ρ, S, ?_⟩
    simp only [Move.run, Move.act]
    exact .ite (by rw [S.order, S.exist]) (fun _ => skip_sim S) fun _ => changeTauCore_sim T hi S hm.2.1 hm.2.2 _
  case changeRLoop v r =>
    refine ⟨ρ, S, ?_⟩
    have hv := hm.2.1
    simp only [Move.run, Move.act]
    refine .ite (by rw [S.order, S.exist]) (fun _ => skip_sim S) fun _ => .ite Iff.rfl (fun _ => trivial) fun _ => ?_
    simp only [deref_V, deref_live hv, Res.ok_bind, S.r _ hv]
    have hN := S.bW.names (hi.W_le hP)
    refine (loopWalk_sim hi S (S.bV.names hi.count.verWf.avail_le) hN (d.co.r v) _ v [] _ _ _ _ (fun _ _ => rfl) (fun _ _ => rfl) hv
      (by simp)).bind fun x x' _ h => ?_
    rcases h with ⟨rfl, rfl⟩ | ⟨vs, fw, fw', rfl, rfl, hm', hx⟩
    · exact skip_sim S
    · exact changeRLoopCore_sim T hi S hx hN hm' _ hm.2.2 _
  case g2w w =>
    refine ⟨ρ, S, ?_⟩
    simp only [Move.run, Move.act]
    refine .ite (by rw [S.order, S.exist, S.measG]) (fun _ => skip_sim S) fun c => ?_
    simp only [not_or, Bool.not_eq_false] at c
    exact .ite (by rw [S.hasGamma]) (fun _ => skip_sim S) fun _ => g2wCore_sim T hi S c.2.2 hm.2 _
  case w2g g =>
    refine ⟨ρ, S, ?_⟩
    simp only [Move.run, Move.act]
    refine .ite (by rw [S.order, S.exist, S.measG]) (fun _ => skip_sim S) fun c => ?_
    simp only [not_or, Bool.not_eq_true] at c
    exact .ite (by rw [S.hasGamma]) (fun _ => skip_sim S) fun _ => w2gCore_sim T hi S c.2.2 hm.2 _
  case delta2cont w t =>
    refine ⟨ρ, S, ?_⟩
    simp only [Move.run, Move.act]
    exact .ite (by rw [S.order, S.exist]) (fun _ => skip_sim S) fun _ => delta2contCore_sim T hi S hm.2.1 hm.2.2 _
  case cont2delta w =>
    refine ⟨ρ, S, ?_⟩
    simp only [Move.run, Move.act]
    exact .ite (by rw [S.order, S.exist]) (fun _ => skip_sim S) fun _ => cont2deltaCore_sim T hi S hm.2 _
  case toOrder0 => exact absurd rfl h0
  case backToOrder1 => exact absurd rfl h1
  case toGGGammaG g t =>
    refine ⟨ρ, S, ?_⟩
    simp only [Move.run, Move.act]
    exact .ite (by rw [S.order, S.exist, S.hasGamma]) (fun _ => skip_sim S) fun _ => toGGGammaGCore_sim T hi S hm.2.1 hm.2.2 _
  case fromGGGammaG =>
    refine ⟨ρ, S, ?_⟩
    simp only [Move.run, Move.act]
    refine .ite (by rw [S.order, S.exist, S.hasGamma]) (fun _ => skip_sim S) fun c => ?_
    exact fromGGGammaGCore_sim T hi S (by tauto) _
  case toWWGammaW w t r =>
    refine ⟨ρ, S, ?_⟩
    simp only [Move.run, Move.act]
    exact .ite (by rw [S.order, S.exist, S.hasGamma]) (fun _ => skip_sim S) fun _ =>
      toWWGammaWCore_sim T hi S hm.2.1 hm.2.2.1 hm.2.2.2 _
  case fromWWGammaW =>
    refine ⟨ρ, S, ?_⟩
    simp only [Move.run, Move.act]
    refine .ite (by rw [S.order, S.exist, S.hasGamma]) (fun _ => skip_sim S) fun c => ?_
    exact fromWWGammaWCore_sim T hi S (by tauto) _

/-! ### Jumps between order 0 and order 1 -/

theorem SameState.parts {fV fG fW : ℕ → ℕ} (s : SameState d d' fV fG fW) : SameParts d d' fV fG fW where
  order := s.order
  sfl := s.sfl
  ver := s.ver
  g := s.g
  w := s.w
  nVer := s.nVer
  nG := s.nG
  nW := s.nW
  vG := s.vG
  vW := s.vW
  vDir := s.vDir
  gV := s.gV
  wV := s.wV
  co := s.co
  gK := s.gK
  wK := s.wK
  gFl := s.gFl
  wFl := s.wFl
  exist := s.exist
  worm := s.worm
  measG := s.measG
  gMeasure := s.gMeasure
  wMeasure := s.wMeasure
  hasGamma := s.hasGamma
  ext := s.ext

/-- The two vertices correspond to each other, in one of the two orders. -/
theorem SameState.pair {fV fG fW : ℕ → ℕ} (s : SameState d d' fV fG fW) (hi : Inv P d) (hi' : Inv P d') (hn : d.W.avail = 1) :
    (d'.Ver.slot 0 = fV (d.Ver.slot 0) ∧ d'.Ver.slot 1 = fV (d.Ver.slot 1)) ∨
    (d'.Ver.slot 0 = fV (d.Ver.slot 1) ∧ d'.Ver.slot 1 = fV (d.Ver.slot 0)) := by
  obtain ⟨h1, h2, hne, hV, -⟩ := hi.pair hn
  obtain ⟨h1', h2', hne', hV', -⟩ := hi'.pair (s.nW.trans hn)
  have m1 : fV (d.Ver.slot 0) ∈ d'.Ver.live := s.ver.mapsTo h1
  have m2 : fV (d.Ver.slot 1) ∈ d'.Ver.live := s.ver.mapsTo h2
  have hf : fV (d.Ver.slot 0) ≠ fV (d.Ver.slot 1) := fun q => hne (s.ver.injOn h1 h2 q)
  rw [hV', Finset.mem_insert, Finset.mem_singleton] at m1 m2
  rcases m1 with m1 | m1 <;> rcases m2 with m2 | m2
  · exact absurd (m1.trans m2.symm) hf
  · exact Or.inl ⟨m1.symm, m2.symm⟩
  · exact Or.inr ⟨m2.symm, m1.symm⟩
  · exact absurd (m1.trans m2.symm) hf

theorem metropolis_yes {rej : Diag Q F} {p u : Q} (ho : d.order < MAX_ORDER) (h : 1 ≤ p ∨ u < p) (e : Diag Q F) :
    metropolis d rej p u (.ok e) = .ok ⟨.accept, p, e⟩ := by
  unfold metropolis
  rw [if_pos ho, if_pos h]
  rfl

/-- Corresponding accepted results. -/
def Follows (P : Params Q F) (d' : Diag Q F) (u : Q) (out : Out Q F) (m' : Move Q) : Prop :=
  m'.Valid P d' ∧ ∃ out', m'.run P d' u = .ok out' ∧ out'.tag = .accept ∧ out'.prob = out.prob ∧ SameUpToCells out.d out'.d

theorem toOrder0_transfer (hP : P.Wf) (hi : Inv P d) (hi' : Inv P d') (s : SameUpToCells d d')
    (hm : (Move.toOrder0 : Move Q).Valid P d) {u : Q} (hu : 0 ≤ u) {out : Out Q F}
    (e : (Move.toOrder0 : Move Q).run P d u = .ok out) (ha : out.tag = .accept) : Follows P d' u out .toOrder0 := by
  obtain ⟨fV, fG, fW, s⟩ := s
  by_cases hc : ZeroOk d
  swap
  · rw [toOrder0_skip hi hc] at e; exact absurd ha (fun q => skip_not_accept e q)
  have hm' : (Move.toOrder0 : Move Q).Valid P d' := ⟨hm.1, trivial⟩
  have hi2 : Inv P out.d := by
    obtain ⟨o', e', hi, -⟩ := Move.good hP hi hm hu
    rw [e] at e'; cases e'; exact hi
  obtain ⟨o', e', hi2', -⟩ := Move.good hP hi' hm' hu
  obtain ⟨ph, er⟩ := toOrder0_run hP hi hc
  rw [er] at e
  obtain ⟨q1, q2, q3⟩ := metropolis_accept e ha
  obtain ⟨⟨hw, ho⟩, hγ, hr⟩ := hc
  have hn : d.W.avail = 1 := by rw [← hi.order_eq (by omega), ho]
  obtain ⟨h1, h2, hne, hV, -⟩ := hi.pair hn
  have c1 := s.co (by omega) _ h1
  have c2 := s.co (by omega) _ h2
  have hz : ZeroOk d' ∧ zeroC P d' = zeroC P d := by
    refine ⟨⟨⟨s.exist.trans hw, s.order.trans ho⟩, s.hasGamma.trans hγ, ?_⟩, ?_⟩
    · rcases s.pair hi hi' hn with ⟨x, y⟩ | ⟨x, y⟩
      · rw [x, y, c1.1, c2.1, hr]
      · rw [x, y, c1.1, c2.1, hr]
    · unfold zeroC
      rcases s.pair hi hi' hn with ⟨x, y⟩ | ⟨x, y⟩
      · rw [x, y, c1.1, c1.2.1, c2.2.1]
      · rw [x, y, c2.1, c1.2.1, c2.2.1, hr]; ring
  obtain ⟨ph', er'⟩ := toOrder0_run hP hi' hz.1
  rw [er', hz.2, s.weight, metropolis_yes (hi'.order_lt hP) q3] at e'
  cases e'
  refine ⟨hm', _, by rw [er', hz.2, s.weight, metropolis_yes (hi'.order_lt hP) q3], rfl, q1.symm, fV, fG, fW, ?_⟩
  refine SameParts.same ?_ hi2 hi2'
  rw [q2]
  exact { s.parts with order := rfl, co := fun q => absurd rfl q }

theorem setOne_at {r : Site} {t1 t2 : Q} {s1 s2 : Spin} (hne : d.Ver.slot 0 ≠ d.Ver.slot 1) :
    let x := setOne d r t1 t2 s1 s2
    (x.co.r (d.Ver.slot 0) = r ∧ x.co.tau (d.Ver.slot 0) = t1 ∧ x.co.spin (d.Ver.slot 0) = fun e => if e = OUT then s1 else s2) ∧
    (x.co.r (d.Ver.slot 1) = r ∧ x.co.tau (d.Ver.slot 1) = t2 ∧ x.co.spin (d.Ver.slot 1) = fun e => if e = OUT then s2 else s1) := by
  refine ⟨⟨?_, ?_, ?_⟩, ?_, ?_, ?_⟩
  · show upd (upd _ _ _) _ _ _ = _
    rw [upd_ne _ _ hne, upd_same]
  · show upd (upd _ _ _) _ _ _ = _
    rw [upd_ne _ _ hne, upd_same]
  · show upd (upd _ _ _) _ _ _ = _
    rw [upd_ne _ _ hne, upd_same]
  · show upd (upd _ _ _) _ _ _ = _
    rw [upd_same]
  · show upd (upd _ _ _) _ _ _ = _
    rw [upd_same]
  · show upd (upd _ _ _) _ _ _ = _
    rw [upd_same]

theorem setOne_parts {fV fG fW : ℕ → ℕ} (s : SameState d d' fV fG fW) (hi : Inv P d) (hi' : Inv P d') (hn : d.W.avail = 1)
    (r : Site) (t1 t2 : Q) (s1 s2 : Spin) : SameParts (setOne d r t1 t2 s1 s2) (setOne d' r t1 t2 s1 s2) fV fG fW ∨
      SameParts (setOne d r t1 t2 s1 s2) (setOne d' r t2 t1 s2 s1) fV fG fW := by
  obtain ⟨h1, h2, hne, hV, -⟩ := hi.pair hn
  obtain ⟨-, -, hne', -⟩ := hi'.pair (s.nW.trans hn)
  obtain ⟨⟨a1, a2, a3⟩, a4, a5, a6⟩ := setOne_at (r := r) (t1 := t1) (t2 := t2) (s1 := s1) (s2 := s2) hne
  rcases s.pair hi hi' hn with ⟨x, y⟩ | ⟨x, y⟩
  · left
    obtain ⟨⟨b1, b2, b3⟩, b4, b5, b6⟩ := setOne_at (r := r) (t1 := t1) (t2 := t2) (s1 := s1) (s2 := s2) hne'
    refine { s.parts with order := rfl, co := fun _ v hv => ?_ }
    have hv : v ∈ d.Ver.live := hv
    rw [hV, Finset.mem_insert, Finset.mem_singleton] at hv
    rw [x] at b1 b2 b3
    rw [y] at b4 b5 b6
    rcases hv with rfl | rfl
    · exact ⟨b1.trans a1.symm, b2.trans a2.symm, b3.trans a3.symm⟩
    · exact ⟨b4.trans a4.symm, b5.trans a5.symm, b6.trans a6.symm⟩
  · right
    obtain ⟨⟨b1, b2, b3⟩, b4, b5, b6⟩ := setOne_at (r := r) (t1 := t2) (t2 := t1) (s1 := s2) (s2 := s1) hne'
    refine { s.parts with order := rfl, co := fun _ v hv => ?_ }
    have hv : v ∈ d.Ver.live := hv
    rw [hV, Finset.mem_insert, Finset.mem_singleton] at hv
    rw [x] at b1 b2 b3
    rw [y] at b4 b5 b6
    rcases hv with rfl | rfl
    · exact ⟨b4.trans a1.symm, b5.trans a2.symm, b6.trans a3.symm⟩
    · exact ⟨b1.trans a4.symm, b2.trans a5.symm, b3.trans a6.symm⟩

theorem back_transfer (hP : P.Wf) (hi : Inv P d) (hi' : Inv P d') (s : SameUpToCells d d') {r : Site} {t1 t2 : Q} {s1 s2 : Spin}
    (hm : (Move.backToOrder1 r t1 t2 s1 s2).Valid P d) {u : Q} (hu : 0 ≤ u) {out : Out Q F}
    (e : (Move.backToOrder1 r t1 t2 s1 s2).run P d u = .ok out) (ha : out.tag = .accept) :
    Follows P d' u out (.backToOrder1 r t1 t2 s1 s2) ∨ Follows P d' u out (.backToOrder1 r t2 t1 s2 s1) := by
  obtain ⟨fV, fG, fW, s⟩ := s
  by_cases hc : d.hasGamma = 0 ∧ d.worm.exist = false ∧ d.order = 0
  swap
  · rw [back_skip hc] at e; exact absurd ha (fun q => skip_not_accept e q)
  have hc' : d'.hasGamma = 0 ∧ d'.worm.exist = false ∧ d'.order = 0 :=
    ⟨s.hasGamma.trans hc.1, s.exist.trans hc.2.1, s.order.trans hc.2.2⟩
  have hn : d.W.avail = 1 := by
    have := hi.count.n_pos
    rcases hi.count.order with q | q
    · omega
    · exact q.2.1
  have hi2 : Inv P out.d := by
    obtain ⟨o', e', hi, -⟩ := Move.good hP hi hm hu
    rw [e] at e'; cases e'; exact hi
  obtain ⟨R, wt, ph, -, er⟩ := back_run (P := P) (r := r) (t1 := t1) (t2 := t2) (s1 := s1) (s2 := s2) hP hi hc
  rw [er] at e
  obtain ⟨q1, q2, q3⟩ := metropolis_accept e ha
  have hpos : 0 < P.mod R * oneC P r t1 t2 := by
    rcases q3 with q | q
    · exact lt_of_lt_of_le one_pos q
    · exact lt_of_le_of_lt hu q
  have hone : 0 < oneC P r t1 t2 := (pos_iff_pos_of_mul_pos hpos).1 (lt_of_le_of_ne (P.mod.nonneg R) fun q => by
    rw [← q, zero_mul] at hpos; exact lt_irrefl _ hpos)
  have main : ∀ (t1' t2' : Q) (s1' s2' : Spin), TauIn P t1' → TauIn P t2' → oneC P r t1' t2' = oneC P r t1 t2 →
      SameParts (setOne d r t1 t2 s1 s2) (setOne d' r t1' t2' s1' s2') fV fG fW →
      Follows P d' u out (.backToOrder1 r t1' t2' s1' s2') := by
    intro t1' t2' s1' s2' ht1 ht2 ho sp
    have hm' : (Move.backToOrder1 r t1' t2' s1' s2').Valid P d' := ⟨hm.1, hm.2.1, ht1, ht2⟩
    obtain ⟨R', wt', ph', hR', er'⟩ := back_run (P := P) (r := r) (t1 := t1') (t2 := t2') (s1 := s1') (s2 := s2') hP hi' hc'
    have sp1 : SameParts out.d { setOne d' r t1' t2' s1' s2' with weight := d'.weight * R', phase := ph', wt := wt' } fV fG fW := by
      rw [q2]; exact { sp with }
    have ho1 : out.d.order ≠ 0 := by rw [q2]; exact one_ne_zero
    have hne : R' ≠ 0 := by
      refine hR' ⟨fun g hg => ?_, fun w hw => ?_⟩
      · obtain ⟨g0, hg0, rfl⟩ := sp1.g.surjOn hg
        exact sp1.gExp_ne hi2 ho1 hg0
      · obtain ⟨g0, hg0, rfl⟩ := sp1.w.surjOn hw
        exact sp1.wExp_ne hi2 ho1 hg0
    have hp0 : (0 : Q) < P.mod R' * oneC P r t1' t2' := mul_pos (P.mod.pos hne) (ho ▸ hone)
    have hi3 : Inv P { setOne d' r t1' t2' s1' s2' with weight := d'.weight * R', phase := ph', wt := wt' } := by
      obtain ⟨o', e', hi, -⟩ := Move.good hP hi' hm' (le_refl (0 : Q))
      rw [er', metropolis_yes (hi'.order_lt hP) (Or.inr hp0)] at e'
      cases e'; exact hi
    have st := sp1.same hi2 hi3
    have hRR : R' = R := by
      have := st.weight
      rw [q2] at this
      have this : d'.weight * R' = d.weight * R := this
      rw [s.weight] at this
      exact mul_left_cancel₀ (hi.weight_ne hP) this
    refine ⟨hm', _, by rw [er', hRR, ho, metropolis_yes (hi'.order_lt hP) q3], rfl, q1.symm, fV, fG, fW, ?_⟩
    rw [hRR] at st
    exact st
  rcases setOne_parts s hi hi' hn r t1 t2 s1 s2 with sp | sp
  · exact Or.inl (main _ _ _ _ hm.2.2.1 hm.2.2.2 rfl sp)
  · exact Or.inr (main _ _ _ _ hm.2.2.2 hm.2.2.1 (by unfold oneC; ring) sp)

/-- **Each accepted move has a counterpart in the same state in other cells**, accepted with the same ratio. -/
theorem Move.transfer (hP : P.Wf) (hi : Inv P d) (hi' : Inv P d') (s : SameUpToCells d d') {m : Move Q} (hm : m.Valid P d)
    {u : Q} (hu : 0 ≤ u) {out : Out Q F} (e : m.run P d u = .ok out) (ha : out.tag = .accept) :
    ∃ m' : Move Q, Follows P d' u out m' ∧ ∀ g, m.Times g → m'.Times g := by
  by_cases h0 : m.op = .toOrder0
  · have : m = .toOrder0 := by
      cases m <;> simp [Move.op] at h0 <;> (try split_ifs at h0)
      rfl
    subst this
    exact ⟨_, toOrder0_transfer hP hi hi' s hm hu e ha, fun _ h => h⟩
  by_cases h1 : m.op = .backToOrder1
  · obtain ⟨r, t1, t2, s1, s2, rfl⟩ : ∃ r t1 t2 s1 s2, m = .backToOrder1 r t1 t2 s1 s2 := by
      cases m <;> simp [Move.op] at h1 <;> (try split_ifs at h1)
      exact ⟨_, _, _, _, _, rfl⟩
    rcases back_transfer hP hi hi' s hm hu e ha with h | h
    · exact ⟨_, h, fun _ h => h⟩
    · exact ⟨_, h, fun _ h => ⟨h.2, h.1⟩⟩
  have ho : d.order ≠ 0 := by
    intro q
    have : m.run P d u = skip d := by
      have hw : d.worm.exist = false := by
        rcases hi.count.order with c | c
        · have := hi.count.n_pos; omega
        · exact c.2.2.1
      cases m <;> first | exact absurd rfl h0 | exact absurd rfl h1 | simp [Move.run, q, hw]
    rw [this] at e
    exact skip_not_accept e ha
  obtain ⟨ρ, S⟩ := s.alike hi hi' ho
  obtain ⟨σ, S', hr⟩ := Move.run_sim hP hi S hm h0 h1 u
  rw [e] at hr
  obtain ⟨out', e', g1, g2, g3⟩ := hr.of_ok
  refine ⟨m.act σ, ⟨Move.act_valid hm S', out', e', g1.trans ha, g2, _, _, _, g3.same'⟩, ?_⟩
  intro g hg
  cases m <;> exact hg

end
end Feyn
