import Verif.Proof.Basic
import Verif.Spec.Transparent

/-!
# Diagrams that differ only in memory layout, unused memory and unused table entries

`Alike B ρ d d'`: the component that `d` keeps in cell `p` is kept by `d'` in cell `ρ p`, and both have the same data. Nothing is
said about cells that are not in the containers, nor about fields that have no meaning in the current state (worm
ends without a worm, slot pointers without a composite line, the pointer to the measuring line of the other kind).

`TabEq P P'`: the parameters agree and the weight tables agree on the lattice and the time interval.
-/

set_option linter.unusedSectionVars false
set_option linter.unusedSimpArgs false

namespace Feyn

/-- A permutation of the cells of each array. Numbers that are not cells are fixed. -/
structure Ren where
  V : Equiv.Perm ℕ
  G : Equiv.Perm ℕ
  W : Equiv.Perm ℕ
  fixV : ∀ p, MAX_BUNDLE ≤ p → V p = p
  fixG : ∀ p, MAX_BUNDLE ≤ p → G p = p
  fixW : ∀ p, MAX_BUNDLE ≤ p → W p = p

theorem perm_lt {π : Equiv.Perm ℕ} {n : ℕ} (h : ∀ p, n ≤ p → π p = p) (p : ℕ) : π p < n ↔ p < n := by
  constructor
  · intro q
    by_contra hn
    rw [h p (not_lt.1 hn)] at q
    exact hn q
  · intro q
    by_contra hn
    have h2 := h _ (not_lt.1 hn)
    have := π.injective h2
    omega

/-! ### Related results -/

/-- Both calls end in the same way, with related results. -/
def Res.Rel {α β : Type} (R : α → β → Prop) : Res α → Res β → Prop
  | .ok a, .ok b => R a b
  | .abort, .abort => True
  | .ub, .ub => True
  | _, _ => False

theorem Res.Rel.bind {α β γ δ : Type} {R : α → β → Prop} {S : γ → δ → Prop} {x : Res α} {y : Res β}
    {f : α → Res γ} {g : β → Res δ} (h : Res.Rel R x y) (hf : ∀ a b, x = .ok a → R a b → Res.Rel S (f a) (g b)) :
    Res.Rel S (x >>= f) (y >>= g) := by
  cases x <;> cases y <;> first | exact h.elim | exact hf _ _ rfl h | exact h

theorem Res.Rel.same {α γ δ : Type} {S : γ → δ → Prop} (x : Res α) {f : α → Res γ} {g : α → Res δ}
    (hf : ∀ a, x = .ok a → Res.Rel S (f a) (g a)) : Res.Rel S (x >>= f) (x >>= g) := by
  cases x
  · exact hf _ rfl
  · trivial
  · trivial

theorem Res.Rel.ite {α β : Type} {R : α → β → Prop} {c c' : Prop} [Decidable c] [Decidable c'] (hc : c' ↔ c)
    {x y : Res α} {x' y' : Res β} (h1 : c → Res.Rel R x x') (h2 : ¬ c → Res.Rel R y y') :
    Res.Rel R (if c then x else y) (if c' then x' else y') := by
  by_cases h : c
  · rw [if_pos h, if_pos (hc.2 h)]; exact h1 h
  · rw [if_neg h, if_neg (fun q => h (hc.1 q))]; exact h2 h

theorem Res.Rel.of_ok {α β : Type} {R : α → β → Prop} {a : α} {y : Res β} (h : Res.Rel R (.ok a) y) :
    ∃ b, y = .ok b ∧ R a b := by
  cases y
  · exact ⟨_, rfl, h⟩
  · exact h.elim
  · exact h.elim

/-! ### Containers -/

/-- A relation between containers whose cells are renamed by a permutation. -/
abbrev BRel := Equiv.Perm ℕ → Bundle → Bundle → Prop

/-- Containers with renamed cells, in the same order. -/
structure BSim (π : Equiv.Perm ℕ) (b b' : Bundle) : Prop where
  avail : b'.avail = b.avail
  slot : ∀ i, i < MAX_BUNDLE → b'.slot i = π (b.slot i)
  name : ∀ p, p < MAX_BUNDLE → b'.name (π p) = b.name p

theorem agree_upd {β : Type*} {π : Equiv.Perm ℕ} {L : ℕ → Prop} {f f' : ℕ → β} (h : ∀ p, L p → f' (π p) = f p) (a : ℕ) (b : β) :
    ∀ p, L p → upd f' (π a) b (π p) = upd f a b p := by
  intro p hp
  simp only [upd, EmbeddingLike.apply_eq_iff_eq]
  split_ifs
  · rfl
  · exact h p hp

theorem BSim.add {π : Equiv.Perm ℕ} (hπ : ∀ p, MAX_BUNDLE ≤ p → π p = p) {b b' : Bundle} (h : BSim π b b') :
    Res.Rel (fun x x' => x'.1 = π x.1 ∧ BSim π x.2 x'.2) b.add b'.add := by
  unfold Bundle.add
  refine .ite (by rw [h.avail]) (fun _ => trivial) fun _ => ?_
  refine .ite (by rw [h.avail]) (fun hl => ?_) fun _ => trivial
  rw [h.avail, h.slot _ hl]
  refine .ite (perm_lt hπ _) (fun _ => ?_) fun _ => trivial
  exact ⟨rfl, rfl, h.slot, agree_upd h.name _ _⟩

theorem BSim.exist {π : Equiv.Perm ℕ} (hπ : ∀ p, MAX_BUNDLE ≤ p → π p = p) {b b' : Bundle} (h : BSim π b b') (p : ℕ) :
    b'.exist (π p) = b.exist p := by
  unfold Bundle.exist
  have e20 : π p = 20 ↔ p = 20 := by
    constructor
    · intro q
      have := hπ 20 le_rfl
      exact π.injective (q.trans this.symm)
    · rintro rfl
      exact hπ 20 le_rfl
  simp only [e20, perm_lt hπ, h.avail]
  split_ifs with h1 h2
  · rfl
  · rw [h.name p h2]
  · rfl

theorem BSim.remove {π : Equiv.Perm ℕ} (hπ : ∀ p, MAX_BUNDLE ≤ p → π p = p) {b b' : Bundle} (h : BSim π b b') (p : ℕ) :
    Res.Rel (BSim π) (b.remove p) (b'.remove (π p)) := by
  unfold Bundle.remove
  rw [h.exist hπ]
  refine .same _ fun e he => ?_
  refine .ite Iff.rfl (fun _ => trivial) fun hne => ?_
  refine .ite (by rw [h.avail]) (fun _ => trivial) fun _ => ?_
  have hp : p < MAX_BUNDLE := by
    unfold Bundle.exist at he
    split_ifs at he with h1 h2
    · cases he; simp at hne
    · exact h2
  simp only [h.avail, h.name p hp]
  refine .ite Iff.rfl (fun ha => ?_) fun _ => trivial
  rw [h.slot _ ha.1]
  refine .ite (perm_lt hπ _) (fun _ => ?_) fun _ => trivial
  refine ⟨rfl, ?_, agree_upd (agree_upd h.name _ _) _ _⟩
  intro i hi
  simp only [upd]
  split_ifs
  · rfl
  · rfl
  · exact h.slot i hi

theorem BSim.get {π : Equiv.Perm ℕ} {b b' : Bundle} (h : BSim π b b') (n : ℕ) :
    Res.Rel (fun p p' => p' = π p) (b.get n) (b'.get n) := by
  unfold Bundle.get
  refine .ite (by rw [h.avail]) (fun _ => trivial) fun _ => ?_
  refine .ite Iff.rfl (fun hl => ?_) fun _ => trivial
  exact h.slot n hl

theorem BSim.pick {π : Equiv.Perm ℕ} {b b' : Bundle} (h : BSim π b b') (o : Word) :
    Res.Rel (fun p p' => p' = π p) (b.pick o) (b'.pick o) := by
  unfold Bundle.pick
  rw [h.avail]
  refine .same _ fun i _ => ?_
  refine .ite Iff.rfl (fun hl => ?_) fun _ => trivial
  exact h.slot _ hl

/-- A pointer to a slot after renaming. -/
def Handle.act (ρ : Ren) : Handle → Handle
  | .none => .none
  | .g l e => .g (ρ.G l) e
  | .w l e => .w (ρ.W l) e

section
variable {Q F : Type}

/-- The two diagrams have the same components, up to the cells in which they are kept. The containers are related by
`B`. -/
structure Alike (B : BRel) (ρ : Ren) (d d' : Diag Q F) : Prop where
  order : d'.order = d.order
  phase : d'.phase = d.phase
  weight : d'.weight = d.weight
  sfl : d'.sfl = d.sfl
  bG : B ρ.G d.G d'.G
  bW : B ρ.W d.W d'.W
  bV : B ρ.V d.Ver d'.Ver
  vG : ∀ v, v ∈ d.Ver.live → ∀ e, d'.sh.vG (ρ.V v) e = ρ.G (d.sh.vG v e)
  vW : ∀ v, v ∈ d.Ver.live → d'.sh.vW (ρ.V v) = ρ.W (d.sh.vW v)
  vDir : ∀ v, v ∈ d.Ver.live → d'.sh.vDir (ρ.V v) = d.sh.vDir v
  gV : ∀ g, g ∈ d.G.live → ∀ e, d'.sh.gV (ρ.G g) e = ρ.V (d.sh.gV g e)
  wV : ∀ w, w ∈ d.W.live → ∀ e, d'.sh.wV (ρ.W w) e = ρ.V (d.sh.wV w e)
  r : ∀ v, v ∈ d.Ver.live → d'.co.r (ρ.V v) = d.co.r v
  tau : ∀ v, v ∈ d.Ver.live → d'.co.tau (ρ.V v) = d.co.tau v
  spin : ∀ v, v ∈ d.Ver.live → d'.co.spin (ρ.V v) = d.co.spin v
  gK : ∀ g, g ∈ d.G.live → d'.mo.gK (ρ.G g) = d.mo.gK g
  wK : ∀ w, w ∈ d.W.live → d'.mo.wK (ρ.W w) = d.mo.wK w
  gHash : d'.mo.gHash = d.mo.gHash
  wHash : d'.mo.wHash = d.mo.wHash
  gMeas : ∀ g, g ∈ d.G.live → d'.fl.gMeas (ρ.G g) = d.fl.gMeas g
  gGam : ∀ g, g ∈ d.G.live → d'.fl.gGam (ρ.G g) = d.fl.gGam g
  wMeas : ∀ w, w ∈ d.W.live → d'.fl.wMeas (ρ.W w) = d.fl.wMeas w
  wWorm : ∀ w, w ∈ d.W.live → d'.fl.wWorm (ρ.W w) = d.fl.wWorm w
  wDelta : ∀ w, w ∈ d.W.live → d'.fl.wDelta (ρ.W w) = d.fl.wDelta w
  wGam : ∀ w, w ∈ d.W.live → d'.fl.wGam (ρ.W w) = d.fl.wGam w
  gWt : ∀ g, g ∈ d.G.live → d'.wt.gWt (ρ.G g) = d.wt.gWt g
  wWt : ∀ w, w ∈ d.W.live → d'.wt.wWt (ρ.W w) = d.wt.wWt w
  exist : d'.worm.exist = d.worm.exist
  ira : d.worm.exist = true → d'.worm.ira = ρ.V d.worm.ira
  masha : d.worm.exist = true → d'.worm.masha = ρ.V d.worm.masha
  k : d.worm.exist = true → d'.worm.k = d.worm.k
  dSpin : d.worm.exist = true → d'.worm.dSpin = d.worm.dSpin
  wormWt : d.worm.exist = true → d'.worm.wt = d.worm.wt
  measG : d'.measG = d.measG
  gMeasure : d.measG = true → d'.gMeasure = ρ.G d.gMeasure
  wMeasure : d.measG = false → d'.wMeasure = ρ.W d.wMeasure
  hasGamma : d'.hasGamma = d.hasGamma
  ext : d.hasGamma ≠ 0 → d'.ext = d.ext
  vin : d.hasGamma ≠ 0 → d'.vin = d.vin.act ρ
  vout : d.hasGamma ≠ 0 → d'.vout = d.vout.act ρ

/-- Related results of an update. -/
def OutSim (B : BRel) (ρ : Ren) (x x' : Out Q F) : Prop := x'.tag = x.tag ∧ x'.prob = x.prob ∧ Alike B ρ x.d x'.d

variable {ρ : Ren} {B : BRel}

theorem agree_upd' {π σ : Equiv.Perm ℕ} {L : ℕ → Prop} {f f' : ℕ → ℕ} (h : ∀ p, L p → f' (π p) = σ (f p)) (a b : ℕ) :
    ∀ p, L p → upd f' (π a) (σ b) (π p) = σ (upd f a b p) := by
  intro p hp
  simp only [upd, EmbeddingLike.apply_eq_iff_eq]
  split_ifs
  · rfl
  · exact h p hp

theorem agree_upd2 {π σ : Equiv.Perm ℕ} {L : ℕ → Prop} {f f' : ℕ → Dir → ℕ} (h : ∀ p, L p → ∀ e, f' (π p) e = σ (f p e))
    (a : ℕ) (e : Dir) (b : ℕ) : ∀ p, L p → ∀ e', upd2 f' (π a) e (σ b) (π p) e' = σ (upd2 f a e b p e') := by
  intro p hp e'
  simp only [upd2, EmbeddingLike.apply_eq_iff_eq]
  split_ifs
  · rfl
  · exact h p hp e'

@[simp] theorem deref_V (p : ℕ) : deref (ρ.V p) = deref p := by simp [deref, perm_lt ρ.fixV]
@[simp] theorem deref_G (p : ℕ) : deref (ρ.G p) = deref p := by simp [deref, perm_lt ρ.fixG]
@[simp] theorem deref_W (p : ℕ) : deref (ρ.W p) = deref p := by simp [deref, perm_lt ρ.fixW]

variable [Field Q] [LinearOrder Q] [Field F]

theorem skip_sim {d d' : Diag Q F} (S : Alike B ρ d d') : Res.Rel (OutSim B ρ) (skip d) (skip d') := ⟨rfl, rfl, S⟩

theorem metropolis_sim {d d' rej rej' : Diag Q F} (S : Alike B ρ d d') (T : Alike B ρ rej rej') {prob prob' u : Q} (hp : prob' = prob)
    {acc acc' : Res (Diag Q F)} (h : Res.Rel (Alike B ρ) acc acc') :
    Res.Rel (OutSim B ρ) (metropolis d rej prob u acc) (metropolis d' rej' prob' u acc') := by
  subst hp
  unfold metropolis
  refine .ite (by rw [S.order]) (fun _ => ?_) fun _ => trivial
  refine .ite Iff.rfl (fun _ => ?_) fun _ => ⟨rfl, rfl, T⟩
  exact h.bind fun a b _ hab => ⟨rfl, rfl, hab⟩

variable {P P' : Params Q F}

theorem TabEq.refl (P : Params Q F) : TabEq P P := by constructor <;> intros <;> rfl

theorem TabEq.call (h : TabEq P P') (op : Op) : probOfCall P' op = probOfCall P op := by
  unfold probOfCall; rw [h.runGamma3]

theorem TabEq.orderRW (h : TabEq P P') (i : ℕ) : Feyn.orderRW P' i = Feyn.orderRW P i := by
  unfold Feyn.orderRW; rw [h.rw]

theorem TabEq.probTau (h : TabEq P P') (t : Q) : Feyn.probTau P' t = Feyn.probTau P t := by
  unfold Feyn.probTau; rw [h.beta]

theorem TabEq.probSite (h : TabEq P P') (t : Site) : Feyn.probSite P' t = Feyn.probSite P t := by
  unfold Feyn.probSite; rw [h.lx, h.ly, h.nsub]

theorem TabEq.pickTau (h : TabEq P P') (w : Word) : Feyn.pickTau P' w = Feyn.pickTau P w := by
  unfold Feyn.pickTau; rw [h.beta]

theorem TabEq.pickSite (h : TabEq P P') (a b c : Word) : Feyn.pickSite P' a b c = Feyn.pickSite P a b c := by
  unfold Feyn.pickSite; rw [h.lx, h.ly, h.nsub]

theorem TabEq.gammaRW (h : TabEq P P') (b : Bool) : Feyn.gammaRW P' b = Feyn.gammaRW P b := by
  unfold Feyn.gammaRW; rw [h.gammaGRW, h.gammaWRW]

theorem TabEq.normWeight (h : TabEq P P') : Feyn.normWeight P' = Feyn.normWeight P := by
  unfold Feyn.normWeight; rw [h.lx, h.ly, h.nsub]

theorem TabEq.addFactor (h : TabEq P P') (b : Bool) (x y z w : Q) : Feyn.addFactor P' b x y z w = Feyn.addFactor P b x y z w := by
  unfold Feyn.addFactor; simp only [h.call, h.probTau]

theorem TabEq.delFactor (h : TabEq P P') (b : Bool) (x y z w : Q) : Feyn.delFactor P' b x y z w = Feyn.delFactor P b x y z w := by
  unfold Feyn.delFactor; simp only [h.call, h.probTau]

theorem TabEq.gW0 (h : TabEq P P') {e e' : Ext Q} {r r' : Site} {t t' : Q} {s s' : Spin} {m gm : Bool}
    (he : gm = true → e' = e ∧ ExtOk P e) (hr : SiteIn P r) (hr' : SiteIn P r') (ht : TauIn P t) (ht' : TauIn P t') :
    Feyn.gW0 P' e' r r' t t' s s' m gm = Feyn.gW0 P e r r' t t' s s' m gm := by
  unfold Feyn.gW0
  cases m
  · cases gm
    · exact h.gSmoothT _ _ _ _ _ _ hr hr' ht ht'
    · rw [(he rfl).1]; exact h.gGamT _ _ _ _ _ _ _ hr hr' ht ht' (he rfl).2
  · exact h.gMeasT _ _ _ _ _ _ hr hr' ht ht'

theorem TabEq.gW (h : TabEq P P') {e e' : Ext Q} {dir : Dir} {r r' : Site} {t t' : Q} {s s' : Spin} {m gm : Bool}
    (he : gm = true → e' = e ∧ ExtOk P e) (hr : SiteIn P r) (hr' : SiteIn P r') (ht : TauIn P t) (ht' : TauIn P t') :
    Feyn.gW P' e' dir r r' t t' s s' m gm = Feyn.gW P e dir r r' t t' s s' m gm := by
  simp only [gW_eq]
  split_ifs
  · exact h.gW0 he hr hr' ht ht'
  · exact h.gW0 he hr' hr ht' ht

theorem TabEq.wW0 (h : TabEq P P') {e e' : Ext Q} {r r' : Site} {t t' : Q} {s s' : Dir → Spin} {wo m de gm : Bool}
    (he : gm = true → e' = e ∧ ExtOk P e) (hr : SiteIn P r) (hr' : SiteIn P r') (ht : TauIn P t) (ht' : TauIn P t') :
    Feyn.wW0 P' e' r r' t t' s s' wo m de gm = Feyn.wW0 P e r r' t t' s s' wo m de gm := by
  unfold Feyn.wW0
  cases de
  · cases m
    · cases gm
      · exact h.wSmoothT _ _ _ _ _ _ hr hr' ht ht'
      · rw [(he rfl).1]; exact h.wGamT _ _ _ _ _ _ _ hr hr' ht ht' (he rfl).2
    · exact h.wMeasT _ _ _ _ _ _ hr hr' ht ht'
  · exact h.wDeltaT _ _ _ _ hr hr'

theorem TabEq.wW (h : TabEq P P') {e e' : Ext Q} {dir : Dir} {r r' : Site} {t t' : Q} {s s' : Dir → Spin} {wo m de gm : Bool}
    (he : gm = true → e' = e ∧ ExtOk P e) (hd : de = true → m = false)
    (hr : SiteIn P r) (hr' : SiteIn P r') (ht : TauIn P t) (ht' : TauIn P t') :
    Feyn.wW P' e' dir r r' t t' s s' wo m de gm = Feyn.wW P e dir r r' t t' s s' wo m de gm := by
  have hd' : m = true → de = false := by
    intro q; cases de
    · rfl
    · rw [hd rfl] at q; cases q
  have key : ∀ Q' : Params Q F, ∀ f, Feyn.wW Q' f dir r r' t t' s s' wo m de gm = if dir = IN then
      Feyn.wW0 Q' f r r' t t' s s' wo m de gm else Feyn.wW0 Q' f r' r t' t s' s wo m de gm := by
    intro Q' f
    unfold Feyn.wW Feyn.wW0
    cases m
    · cases de <;> cases gm <;> cases dir <;> rfl
    · rw [hd' rfl]; cases dir <;> rfl
  rw [key, key]
  split_ifs
  · exact h.wW0 he hr hr' ht ht'
  · exact h.wW0 he hr' hr ht' ht

end
end Feyn
