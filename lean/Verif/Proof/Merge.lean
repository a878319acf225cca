import Verif.Props.Fourier
import Verif.Spec.Merge
import Mathlib.Algebra.BigOperators.Group.List.Basic
import Mathlib.Tactic.Positivity

/-! Merging and rolling back. -/

namespace Feyn

set_option linter.unusedSectionVars false

section
variable {F M Q : Type} [Field F] [CharZero F] [AddCommGroup M] [Module F M] [Field Q] [LinearOrder Q] [Module Q M] [Algebra Q F] [IsScalarTower Q F M]
  {d : ℕ} {L : Fin d → ℕ} {N : ℕ}

theorem fftn_lin (E : Phase F) (a : Q) (f g : Grid L N M) : fftn E (fun r n => f r n + a • g r n) = fun r n => fftn E f r n + a • fftn E g r n := by
  funext k n
  unfold fftn
  simp only [smul_add, Finset.sum_add_distrib, Finset.smul_sum]
  congr 1
  exact Finset.sum_congr rfl fun r _ => smul_comm _ _ _

theorem matsubara_lin (E : Phase F) (σ : ℕ) (a : Q) (f g : Grid L N M) :
    matsubara E σ (fun r n => f r n + a • g r n) = fun r n => matsubara E σ f r n + a • matsubara E σ g r n := by
  funext k n
  unfold matsubara
  simp only [smul_add, Finset.sum_add_distrib, Finset.smul_sum]
  congr 1
  exact Finset.sum_congr rfl fun r _ => smul_comm _ _ _

theorem Kind.view_lin (κ : Kind) (E : Phase F) (s t : Bool) (a : Q) (f g : Grid L N M) :
    κ.view E (fun r n => f r n + a • g r n) s t = fun r n => κ.view E f s t r n + a • κ.view E g s t r n := by
  unfold Kind.view
  by_cases h : (t && κ.hasTau) = true <;> cases s <;> simp [h, matsubara_lin, fftn_lin]

theorem Kind.view_zero (κ : Kind) (E : Phase F) (s t : Bool) : κ.view E (fun _ _ => 0 : Grid L N M) s t = fun _ _ => 0 := by
  unfold Kind.view
  by_cases h : (t && κ.hasTau) = true <;> cases s <;> simp [h] <;> funext r n <;> simp [fftn, matsubara]

theorem Kind.view_smul (κ : Kind) (E : Phase F) (s t : Bool) (a : Q) (f : Grid L N M) :
    κ.view E (fun r n => a • f r n) s t = fun r n => a • κ.view E f s t r n := by
  have := κ.view_lin E s t a (fun _ _ => 0) f
  simpa [κ.view_zero] using this

theorem fftn_accuToW (κ : Kind) (E : Phase F) (f : Grid L N M) : fftn E (κ.accuToW E f) = κ.accuToW E (fftn E f) := by
  unfold Kind.accuToW
  split
  · rfl
  · have h1 : ∀ g : Grid L N M, fftn E (fft E g) = fft E (fftn E g) := fun g => fftn_time E (fun m n => E.ph (2 * ((n : ℕ) * (m : ℕ)) / N)) g
    rw [h1]
    congr 1
    unfold Kind.changeSymmetry
    split
    · rfl
    · funext k n
      unfold fftn
      rw [Finset.smul_sum]
      exact Finset.sum_congr rfl fun r _ => smul_comm _ _ _

theorem fftn_accuToT (κ : Kind) (E : Phase F) (hN : 0 < N) (f : Grid L N M) : fftn E (κ.accuToT E f) = κ.accuToT E (fftn E f) := by
  rw [← κ.accuToT_accuToW E hN (fftn E (κ.accuToT E f)), ← fftn_accuToW, κ.accuToW_accuToT E hN]

/-- What the accumulated data of a weight look like whose accumulated function is `A`. -/
def Kind.accuView (κ : Kind) (E : Phase F) (t0 : Bool) (A : Grid L N M) (s t : Bool) : Grid L N M :=
  if t = t0 then κ.view E A s t else if t then κ.accuToW E (κ.view E A s t0) else κ.accuToT E (κ.view E A s t0)

theorem accuView_toW (κ : Kind) (E : Phase F) (hN : 0 < N) (t0 : Bool) (A : Grid L N M) (s : Bool) :
    κ.accuToW E (κ.accuView E t0 A s false) = κ.accuView E t0 A s true := by
  cases t0 <;> simp [Kind.accuView, κ.accuToW_accuToT E hN]

theorem accuView_toT (κ : Kind) (E : Phase F) (hN : 0 < N) (t0 : Bool) (A : Grid L N M) (s : Bool) :
    κ.accuToT E (κ.accuView E t0 A s true) = κ.accuView E t0 A s false := by
  cases t0 <;> simp [Kind.accuView, κ.accuToT_accuToW E hN]

theorem accuView_fftn (κ : Kind) (E : Phase F) (hN : 0 < N) (t0 : Bool) (A : Grid L N M) (t : Bool) :
    fftn E (κ.accuView E t0 A false t) = κ.accuView E t0 A true t := by
  unfold Kind.accuView
  split
  · exact κ.fftn_view E A t
  · split
    · rw [fftn_accuToW, κ.fftn_view]
    · rw [fftn_accuToT κ E hN, κ.fftn_view]

theorem accuView_ifftn (κ : Kind) (E : Phase F) (hN : 0 < N) (hL : ∀ i, 0 < L i) (t0 : Bool) (A : Grid L N M) (t : Bool) :
    ifftn E (κ.accuView E t0 A true t) = κ.accuView E t0 A false t := by
  rw [← accuView_fftn κ E hN, ifftn_fftn E hL]

/-- The state of a weight agrees with a ledger. -/
structure Agrees (κ : Kind) (E : Phase F) (t0 : Bool) (w : Merged Q L N M) (b : Ledger Q (Grid L N M)) : Prop where
  data : w.data = κ.view E b.value w.space w.time
  accu : w.accu = if b.last.isSome then some (κ.accuView E t0 b.sum w.space w.time) else none
  norm : w.norm = if b.last.isSome then some b.total else none
  back : match b.last with
    | none => w.back = none ∧ b.entries = []
    | some (r, f) => ∃ g : Plain L N M, w.back = some (r, g) ∧ g.Shows κ E f

theorem Agrees.fft {κ : Kind} {E : Phase F} (hN : 0 < N) (hL : ∀ i, 0 < L i) (hb : κ.beta ≠ 0) {t0 : Bool} {w : Merged Q L N M} {b : Ledger Q (Grid L N M)}
    (h : Agrees κ E t0 w b) (ls : List Letter) : Agrees κ E t0 (w.fft κ E ls) b := by
  obtain ⟨⟨g, s, t⟩, a, n, k⟩ := w
  obtain ⟨h1, h2, h3, h4⟩ := h
  simp only at h1 h2 h3 h4
  subst h1 h2 h3
  have key : ∀ s t, ∀ k, ((match b.last with
    | none => k = none ∧ b.entries = []
    | some (r, f) => ∃ g : Plain L N M, k = some (r, g) ∧ g.Shows κ E f)) →
      Agrees κ E t0 (⟨⟨κ.view E b.value s t, s, t⟩, if b.last.isSome then some (κ.accuView E t0 b.sum s t) else none,
        if b.last.isSome then some b.total else none, k⟩ : Merged Q L N M) b := fun s t k h => ⟨rfl, rfl, rfl, h⟩
  unfold Merged.fft
  have hm : ∀ (c : Bool) (x : Grid L N M) (f : Grid L N M → Grid L N M), Option.map f (if c = true then some x else none) =
      if c = true then some (f x) else none := fun c x f => by cases c <;> rfl
  cases s <;> cases t <;> by_cases hR : Letter.R ∈ ls <;> by_cases hK : Letter.K ∈ ls <;> by_cases hT : Letter.T ∈ ls <;>
    by_cases hW : Letter.W ∈ ls <;>
    simp [hR, hK, hT, hW, hm, Kind.fftn_view, Kind.ifftn_view, Kind.toW_view, Kind.toT_view, accuView_toW, accuView_toT, accuView_fftn, accuView_ifftn,
      hN, hL, hb] <;> exact key _ _ _ h4

theorem domains_space (s t b : Bool) : after b (Letter.R ∈ domains s t) (Letter.K ∈ domains s t) = s := by
  cases s <;> cases t <;> simp [domains, after]

theorem domains_time (s t b : Bool) : after b (Letter.T ∈ domains s t) (Letter.W ∈ domains s t) = t := by
  cases s <;> cases t <;> simp [domains, after]

/-- The data of a weight that was brought to given domains. -/
theorem data_in (κ : Kind) (E : Phase F) (hN : 0 < N) (hL : ∀ i, 0 < L i) (hb : κ.beta ≠ 0) {g : Plain L N M} {f : Grid L N M} (h : g.Shows κ E f)
    (s t : Bool) : (g.fft κ E (domains s t)).data = κ.view E f s t ∧ (g.fft κ E (domains s t)).Shows κ E f := by
  obtain ⟨h1, h2, h3⟩ := C63_transform κ E hN hL hb g f h (domains s t)
  refine ⟨?_, h1⟩
  unfold Plain.Shows at h1
  rw [h1, h2, h3, domains_space, domains_time]

theorem Ledger.total_merge (b : Ledger Q (Grid L N M)) (r : Q) (f : Grid L N M) : (b.merge (some r) f).total = b.total + r := by
  simp [Ledger.total, Ledger.merge]

theorem Ledger.sum_merge (b : Ledger Q (Grid L N M)) (r : Q) (f : Grid L N M) : (b.merge (some r) f).sum = fun x n => b.sum x n + r • f x n := by
  funext x n
  simp [Ledger.sum, Ledger.merge]

theorem view_mean (κ : Kind) (E : Phase F) (s t : Bool) (c : Prop) [Decidable c] (a : Q) (f g : Grid L N M) :
    κ.view E (if c then fun r n => a • f r n else g) s t = if c then fun r n => a • κ.view E f s t r n else κ.view E g s t := by
  split
  · exact κ.view_smul E s t a f
  · rfl

theorem Agrees.merge {κ : Kind} {E : Phase F} (hN : 0 < N) (hL : ∀ i, 0 < L i) (hb : κ.beta ≠ 0) {w : Merged Q L N M} {b : Ledger Q (Grid L N M)}
    (h : Agrees κ E w.time w b) {g : Plain L N M} {f : Grid L N M} (hg : g.Shows κ E f) (ratio : Option Q) :
    Agrees κ E w.time (w.merge κ E ratio g) (b.merge ratio f) := by
  obtain ⟨h1, h2⟩ := data_in κ E hN hL hb hg w.space w.time
  have hn : w.norm.getD 0 = b.total := by
    rw [h.norm]
    cases hl : b.last with
    | none => have := h.back; rw [hl] at this; simp [Ledger.total, this.2]
    | some x => simp
  have ha : (w.accu.getD fun _ _ => 0) = κ.view E b.sum w.space w.time := by
    rw [h.accu]
    cases hl : b.last with
    | none =>
      have := h.back
      rw [hl] at this
      have hs : b.sum = fun _ _ => 0 := by funext r n; simp [Ledger.sum, this.2]
      rw [hs, κ.view_zero]
      simp
    | some x => simp [Kind.accuView]
  cases ratio with
  | none =>
    refine ⟨?_, ?_, ?_, ?_⟩
    · show (if _ then _ else _) = _
      unfold Ledger.value
      simp only [Merged.merge, hn, ha, h1]
      rw [view_mean]
      rfl
    · simp [Merged.merge, Ledger.merge, ha, Kind.accuView]
      rfl
    · simp [Merged.merge, Ledger.merge, hn]
      rfl
    · exact ⟨_, rfl, h2⟩
  | some r =>
    refine ⟨?_, ?_, ?_, ?_⟩
    · show (if _ then _ else _) = _
      unfold Ledger.value
      rw [view_mean, Ledger.total_merge, Ledger.sum_merge, κ.view_lin]
      simp only [Merged.merge, hn, ha, h1]
      rfl
    · rw [Ledger.sum_merge]
      simp [Merged.merge, Ledger.merge, ha, h1, Kind.accuView, κ.view_lin]
    · rw [Ledger.total_merge]
      simp [Merged.merge, Ledger.merge, hn]
    · exact ⟨_, rfl, h2⟩

theorem Agrees.rollBack {κ : Kind} {E : Phase F} (hN : 0 < N) (hL : ∀ i, 0 < L i) (hb : κ.beta ≠ 0) {w : Merged Q L N M} {b : Ledger Q (Grid L N M)}
    (h : Agrees κ E w.time w b) : Agrees κ E w.time (w.rollBack κ E) b.rollBack := by
  have hback := h.back
  unfold Merged.rollBack Ledger.rollBack
  cases hl : b.last with
  | none => rw [hl] at hback; rw [hback.1]; exact h
  | some x =>
    obtain ⟨ratio, f⟩ := x
    rw [hl] at hback
    obtain ⟨g, hk, hg⟩ := hback
    rw [hk]
    cases ratio with
    | none => exact h
    | some r =>
      obtain ⟨h1, h2⟩ := data_in κ E hN hL hb hg w.space w.time
      have hn : w.norm.getD 0 = b.total := by rw [h.norm, hl]; simp
      have ha : (w.accu.getD fun _ _ => 0) = κ.view E b.sum w.space w.time := by rw [h.accu, hl]; simp [Kind.accuView]
      have ht : (⟨b.start, b.entries ++ [(-r, f)], some (some r, f)⟩ : Ledger Q (Grid L N M)).total = b.total - r := by
        simp [Ledger.total, sub_eq_add_neg]
      have hs : (⟨b.start, b.entries ++ [(-r, f)], some (some r, f)⟩ : Ledger Q (Grid L N M)).sum = fun x n => b.sum x n + (-r) • f x n := by
        funext x n
        simp [Ledger.sum]
      have hv : κ.view E (fun x n => b.sum x n + (-r) • f x n) w.space w.time = fun x n => κ.view E b.sum w.space w.time x n - r • κ.view E f w.space w.time x n := by
        rw [κ.view_lin]
        funext x n
        rw [neg_smul, sub_eq_add_neg]
      refine ⟨?_, ?_, ?_, ?_⟩
      · unfold Ledger.value
        simp only
        rw [view_mean, ht, hs, hv, hn, ha, h1]
      · simp only
        rw [hs]
        unfold Kind.accuView
        rw [if_pos rfl, hv, ha, h1]
        rfl
      · simp only
        rw [ht, hn]
        simp
      · exact ⟨_, rfl, h2⟩

theorem Tracked.agrees [IsStrictOrderedRing Q] {κ : Kind} {E : Phase F} (hN : 0 < N) (hL : ∀ i, 0 < L i) (hb : κ.beta ≠ 0) {t0 : Bool} {w : Merged Q L N M}
    {b : Ledger Q (Grid L N M)} (h : Tracked κ E t0 w b) : Agrees κ E t0 w b := by
  induction h with
  | new hw =>
    refine ⟨?_, rfl, rfl, rfl, rfl⟩
    have h0 : ¬ (1 / 1000 : Q) < 0 := by rw [not_lt]; positivity
    unfold Ledger.value Ledger.total
    simp only [List.map_nil, List.sum_nil, h0, if_false]
    exact hw
  | fft ls _ ih => exact ih.fft hN hL hb ls
  | merge ratio _ ht hg ih => subst ht; exact ih.merge hN hL hb hg ratio
  | rollBack _ ht ih => subst ht; exact ih.rollBack hN hL hb

end

end Feyn
