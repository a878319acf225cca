import Verif.Spec.Unbiased
import Verif.Proof.StatMain

/-! Sums over the diagrams of first order. -/

namespace Feyn

set_option linter.unusedSectionVars false

section
variable {Q F : Type} [Field Q] [LinearOrder Q] [IsStrictOrderedRing Q] [Field F] [Algebra Q F]
variable {P : Params Q F} {d d' d₁ d₂ e z x : Diag Q F}

/-- The choices of a jump to order 1. -/
def jumps (P : Params Q F) : Finset (Site × Q × Q × Bool × Bool) := allSites P ×ˢ timeGrid P ×ˢ timeGrid P ×ˢ both ×ˢ both

/-- The jump to order 1. -/
def jump (c : Site × Q × Q × Bool × Bool) : Move Q := .backToOrder1 c.1 c.2.1 c.2.2.1 c.2.2.2.1 c.2.2.2.2

/-- Where the jump leads. -/
def landing (P : Params Q F) (z : Diag Q F) (c : Site × Q × Q × Bool × Bool) : Option (Diag Q F) := ((jump c).accepted P z).map Prod.snd

theorem landing_some {c : Site × Q × Q × Bool × Bool} (h : landing P z c = some d') : ∃ a, (jump c).accepted P z = some (a, d') := by
  unfold landing at h
  obtain ⟨⟨a, y⟩, h1, h2⟩ := Option.map_eq_some_iff.1 h
  cases h2
  exact ⟨a, h1⟩

theorem jump_mem (z : Diag Q F) {c : Site × Q × Q × Bool × Bool} (h : c ∈ jumps P) : jump c ∈ allMoves P z := by
  unfold allMoves
  rw [Finset.mem_biUnion]
  refine ⟨.backToOrder1, Finset.mem_filter.2 ⟨by simp [allOps], idx_lt P (op := .backToOrder1) (by decide)⟩, ?_⟩
  unfold movesOf
  exact Finset.mem_image.2 ⟨c, h, rfl⟩

theorem mem_jump (hP : P.Wf) {r : Site} {t1 t2 : Q} {s1 s2 : Spin} (h : Move.backToOrder1 r t1 t2 s1 s2 ∈ allMoves P z) : (r, t1, t2, s1, s2) ∈ jumps P := by
  obtain ⟨⟨-, h1, -⟩, h2, h3⟩ := (mem_allMoves hP).1 h
  unfold jumps
  simp only [Finset.mem_product]
  refine ⟨mem_allSites.2 h1, mem_timeGrid.2 h2, mem_timeGrid.2 h3, ?_, ?_⟩
  · cases s1 <;> decide
  · cases s2 <;> decide

theorem zeroC_pos (hP : P.Wf) (hf : PosFactors P) : 0 < zeroC P x := by
  have r0 := hf.order_pos hP (Nat.zero_le P.maxOrd)
  have r1 := hf.order_pos hP hP.one_le
  have hb := hP.beta_pos
  have hn0 := numOps_cast_pos P
  have hS : (0 : Q) < ((P.lx * P.ly : ℕ) : Q) * (P.nsub : Q) := by
    have : 0 < P.lx * P.ly := Nat.mul_pos hP.lx_pos hP.ly_pos
    exact mul_pos (by exact_mod_cast this) (by exact_mod_cast hP.nsub_pos)
  unfold zeroC
  rw [probOfCall_eq P (idx_lt P (op := .backToOrder1) (by decide)), probOfCall_eq P (idx_lt P (op := .toOrder0) (by decide))]
  simp only [probTau, probSite]
  positivity

theorem oneC_pos (hP : P.Wf) (hf : PosFactors P) (r : Site) (t1 t2 : Q) : 0 < oneC P r t1 t2 := by
  have r0 := hf.order_pos hP (Nat.zero_le P.maxOrd)
  have r1 := hf.order_pos hP hP.one_le
  have hb := hP.beta_pos
  have hn0 := numOps_cast_pos P
  have hS : (0 : Q) < ((P.lx * P.ly : ℕ) : Q) * (P.nsub : Q) := by
    have : 0 < P.lx * P.ly := Nat.mul_pos hP.lx_pos hP.ly_pos
    exact mul_pos (by exact_mod_cast this) (by exact_mod_cast hP.nsub_pos)
  unfold oneC
  rw [probOfCall_eq P (idx_lt P (op := .backToOrder1) (by decide)), probOfCall_eq P (idx_lt P (op := .toOrder0) (by decide))]
  simp only [probTau, probSite]
  positivity

theorem toOrder0_accepted (hP : P.Wf) (hf : PosFactors P) (gx : GoodState P x) (ho : x.order = 1) (hw : x.worm.exist = false) (hγ : x.hasGamma = 0) :
    ∃ a d', (Move.toOrder0 : Move Q).accepted P x = some (a, d') ∧ d'.order = 0 := by
  have hi := gx.inv
  have hn : x.W.avail = 1 := by rw [← hi.order_eq (by omega), ho]
  obtain ⟨h1, h2, hne, hV, g1, g2⟩ := hi.pair hn
  obtain ⟨t1, t2, -⟩ := hi.pairTopo hn hw h1 h2 hne hV
  have hr : x.co.r (x.Ver.slot 0) = x.co.r (x.Ver.slot 1) := by
    have := gx.site _ (hi.topo.vG_mem _ h1 OUT) OUT
    rw [t1, hi.topo.gV_vG _ h1 OUT] at this
    exact this.symm
  obtain ⟨ph, er⟩ := toOrder0_run hP hi ⟨⟨hw, ho⟩, hγ, hr⟩
  have hp : 0 < P.mod (normWeight P / x.weight) * zeroC P x :=
    mul_pos (P.mod.pos (div_ne_zero hP.norm_ne (hi.weight_ne hP))) (zeroC_pos hP hf)
  have e := er 0
  rw [metropolis_yes (by rw [ho]; decide) (Or.inr hp)] at e
  exact ⟨_, _, accepted_run e rfl, rfl⟩

theorem mem_toOrder0 (x : Diag Q F) : (Move.toOrder0 : Move Q) ∈ allMoves P x := by
  unfold allMoves
  rw [Finset.mem_biUnion]
  exact ⟨.toOrder0, Finset.mem_filter.2 ⟨by simp [allOps], idx_lt P (op := .toOrder0) (by decide)⟩, by simp [movesOf]⟩

/-- The jumps from order 0 lead to every diagram of first order once. -/
theorem first_sum (hP : P.Wf) (hf : PosFactors P) {X0 X1 : Finset (Diag Q F)} (hX : FirstOrders P X0 X1) {M : Type} [AddCommMonoid M] (f : Diag Q F → M)
    (hc : ∀ d e, SameUpToCells d e → Inv P d → f d = f e) :
    ∑ x ∈ X1, f x = ∑ z ∈ X0, ∑ c ∈ jumps P, ((landing P z c).map f).getD 0 := by
  classical
  rw [← Finset.sum_product']
  have hex : ∀ p ∈ (X0 ×ˢ jumps P).filter (fun p => (landing P p.1 p.2).isSome), ∃ x ∈ X1, ∃ a d', (jump p.2).accepted P p.1 = some (a, d') ∧ landing P p.1 p.2 = some d' ∧ SameUpToCells d' x := by
    intro p hp
    obtain ⟨hp, hs⟩ := Finset.mem_filter.1 hp
    obtain ⟨hz, hj⟩ := Finset.mem_product.1 hp
    obtain ⟨d', hd⟩ := Option.isSome_iff_exists.1 hs
    obtain ⟨a, ha⟩ := landing_some hd
    obtain ⟨x, hx, s⟩ := hX.up _ hz _ (jump_mem p.1 hj) _ _ ha
    exact ⟨x, hx, a, d', ha, hd, s⟩
  have hsum : ∑ p ∈ X0 ×ˢ jumps P, ((landing P p.1 p.2).map f).getD 0 =
      ∑ p ∈ (X0 ×ˢ jumps P).filter (fun p => (landing P p.1 p.2).isSome), ((landing P p.1 p.2).map f).getD 0 := by
    rw [Finset.sum_filter]
    refine Finset.sum_congr rfl fun p _ => ?_
    split_ifs with h
    · rfl
    · rw [Option.not_isSome_iff_eq_none.1 h]; rfl
  rw [hsum]
  symm
  refine Finset.sum_bij (fun p hp => (hex p hp).choose) (fun p hp => (hex p hp).choose_spec.1) ?_ ?_ ?_
  · intro p hp q hq e
    obtain ⟨hx, a, d', ha, -, s⟩ := (hex p hp).choose_spec
    obtain ⟨hx', a', d'', ha', -, s'⟩ := (hex q hq).choose_spec
    rw [← e] at s' hx'
    set x := (hex p hp).choose
    obtain ⟨hp1, hp2⟩ := Finset.mem_product.1 (Finset.mem_filter.1 hp).1
    obtain ⟨hq1, hq2⟩ := Finset.mem_product.1 (Finset.mem_filter.1 hq).1
    have gx := hX.good1 x hx
    -- both come back by the jump to order 0
    have back : ∀ z ∈ X0, ∀ c ∈ jumps P, ∀ a d', (jump c).accepted P z = some (a, d') → SameUpToCells d' x →
        ∃ b e₁, (Move.toOrder0 : Move Q).accepted P x = some (b, e₁) ∧ SameUpToCells e₁ z := by
      intro z hz c hc a d' ha s
      obtain ⟨n, b, e₁, pt⟩ := exists_partner hP hf (hX.good0 z hz) gx (jump_mem z hc) ha s
      obtain ⟨out, er, hacc, -, rfl, -⟩ := accepted_ex pt.acc
      have : out.d.order = 0 := by
        obtain ⟨_, _, _, s⟩ := pt.same
        rw [← s.order, hX.order0 z hz]
      obtain rfl := Move.to_zero hP gx.inv er hacc this
      exact ⟨b, _, pt.acc, pt.same⟩
    obtain ⟨b, e₁, k1, k2⟩ := back _ hp1 _ hp2 _ _ ha s
    obtain ⟨b', e₁', k1', k2'⟩ := back _ hq1 _ hq2 _ _ ha' s'
    rw [k1] at k1'
    cases k1'
    have hie : Inv P e₁ := accepted_inv hP gx.inv (mem_toOrder0 x) k1
    have ez : p.1 = q.1 := hX.differ0 _ hp1 _ hq1 ((k2.symm hie).trans k2')
    obtain ⟨o₁, er₁, hacc₁, -, rfl, -⟩ := accepted_ex ha
    rw [← ez] at ha'
    obtain ⟨o₂, er₂, hacc₂, -, rfl, -⟩ := accepted_ex ha'
    have := back_unique hP (hX.good0 _ hp1).inv er₁ hacc₁ er₂ hacc₂ s s'
    obtain ⟨z, r, t1, t2, s1, s2⟩ := p
    obtain ⟨z', r', t1', t2', s1', s2'⟩ := q
    simp only [Move.backToOrder1.injEq] at this ez
    obtain ⟨rfl, rfl, rfl, rfl, rfl⟩ := this
    rw [ez]
  · intro x hx
    have gx := hX.good1 x hx
    obtain ⟨ho, hw, hγ⟩ := hX.order1 x hx
    obtain ⟨a, d', ha, h0⟩ := toOrder0_accepted hP hf gx ho hw hγ
    obtain ⟨z, hz, s⟩ := hX.down x hx a d' ha
    obtain ⟨n, b, e₁, pt⟩ := exists_partner hP hf gx (hX.good0 z hz) (mem_toOrder0 x) ha s
    obtain ⟨out, er, hacc, -, hd, -⟩ := accepted_ex pt.acc
    obtain ⟨r, t1, t2, s1, s2, rfl⟩ := Move.of_zero (hX.good0 z hz).inv (hX.order0 z hz) er hacc
    have hm := mem_jump hP pt.mem
    have hl : landing P z (r, t1, t2, s1, s2) = some e₁ := by
      unfold landing jump
      rw [pt.acc]
      rfl
    have hmem : (z, r, t1, t2, s1, s2) ∈ (X0 ×ˢ jumps P).filter (fun p => (landing P p.1 p.2).isSome) := by
      rw [Finset.mem_filter]
      exact ⟨Finset.mem_product.2 ⟨hz, hm⟩, by rw [hl]; rfl⟩
    refine ⟨_, hmem, ?_⟩
    obtain ⟨hx', a', d'', ha', hl', s'⟩ := (hex _ hmem).choose_spec
    rw [hl] at hl'
    cases hl'
    have hie : Inv P e₁ := accepted_inv hP (hX.good0 z hz).inv pt.mem pt.acc
    exact hX.differ1 _ hx' _ hx ((s'.symm hie).trans pt.same)
  · intro p hp
    obtain ⟨hx, a, d', ha, hl, s⟩ := (hex p hp).choose_spec
    obtain ⟨hp1, hp2⟩ := Finset.mem_product.1 (Finset.mem_filter.1 hp).1
    have hid : Inv P d' := accepted_inv hP (hX.good0 _ hp1).inv (jump_mem p.1 hp2) ha
    refine Eq.trans ?_ (hc _ _ s hid)
    rw [hl]
    rfl

end
end Feyn
