import Verif.Proof.Merge
import Verif.Spec.Loop
import Mathlib.Tactic.Linarith
import Mathlib.Tactic.FieldSimp

/-! The accumulated functions along the loop. -/

namespace Feyn

set_option linter.unusedSectionVars false

section
variable {F M Q : Type} [Field F] [CharZero F] [AddCommGroup M] [Module F M] [Field Q] [LinearOrder Q] [Module Q M] [Algebra Q F] [IsScalarTower Q F M]
  {d : ℕ} {L : Fin d → ℕ} {N : ℕ}

theorem Merged.fft_time (κ : Kind) (E : Phase F) (w : Merged Q L N M) (ls : List Letter) :
    (w.fft κ E ls).time = after w.time (Letter.T ∈ ls) (Letter.W ∈ ls) := by
  obtain ⟨⟨g, s, t⟩, a, n, k⟩ := w
  unfold Merged.fft
  cases s <;> cases t <;> by_cases hR : Letter.R ∈ ls <;> by_cases hK : Letter.K ∈ ls <;> by_cases hT : Letter.T ∈ ls <;>
    by_cases hW : Letter.W ∈ ls <;> simp [hR, hK, hT, hW, after]

theorem Merged.fft_space (κ : Kind) (E : Phase F) (w : Merged Q L N M) (ls : List Letter) :
    (w.fft κ E ls).space = after w.space (Letter.R ∈ ls) (Letter.K ∈ ls) := by
  obtain ⟨⟨g, s, t⟩, a, n, k⟩ := w
  unfold Merged.fft
  cases s <;> cases t <;> by_cases hR : Letter.R ∈ ls <;> by_cases hK : Letter.K ∈ ls <;> by_cases hT : Letter.T ∈ ls <;>
    by_cases hW : Letter.W ∈ ls <;> simp [hR, hK, hT, hW, after]

theorem Merged.rollBack_time (κ : Kind) (E : Phase F) (w : Merged Q L N M) : (w.rollBack κ E).time = w.time := by
  unfold Merged.rollBack
  split <;> rfl

/-- The ledger of a weight holds the given sums. -/
def HoldsSums (κ : Kind) (E : Phase F) (t0 : Bool) (w : Merged Q L N M) (c : Q) (S : Grid L N M) : Prop :=
  ∃ b : Ledger Q (Grid L N M), Tracked κ E t0 w b ∧ b.total = c ∧ b.sum = S

theorem HoldsSums.fft {κ : Kind} {E : Phase F} {t0 : Bool} {w : Merged Q L N M} {c : Q} {S : Grid L N M} (h : HoldsSums κ E t0 w c S) (ls : List Letter) :
    HoldsSums κ E t0 (w.fft κ E ls) c S := by
  obtain ⟨b, h1, h2⟩ := h
  exact ⟨b, .fft ls h1, h2⟩

theorem HoldsSums.merge {κ : Kind} {E : Phase F} {t0 : Bool} {w : Merged Q L N M} {c : Q} {S : Grid L N M} (h : HoldsSums κ E t0 w c S) (ht : w.time = t0) (r : Q)
    (f : Grid L N M) : HoldsSums κ E t0 (w.merge κ E (some r) ⟨f, false, false⟩) (c + r) (fun x n => S x n + r • f x n) := by
  obtain ⟨b, h1, rfl, rfl⟩ := h
  exact ⟨_, .merge (some r) h1 ht (κ.view_false E f).symm, Ledger.total_merge b r f, Ledger.sum_merge b r f⟩

/-- A function that is merged, transformed and taken out again. -/
theorem HoldsSums.undo {κ : Kind} {E : Phase F} {t0 : Bool} {w : Merged Q L N M} {c : Q} {S : Grid L N M} (h : HoldsSums κ E t0 w c S) (ht : w.time = t0) (r : Q)
    (f : Grid L N M) (calls : List (List Letter))
    (ht' : (calls.foldl (fun w ls => Merged.fft κ E w ls) (w.merge κ E (some r) ⟨f, false, false⟩)).time = t0) :
    HoldsSums κ E t0 ((calls.foldl (fun w ls => Merged.fft κ E w ls) (w.merge κ E (some r) ⟨f, false, false⟩)).rollBack κ E) c S := by
  obtain ⟨b, h1, rfl, rfl⟩ := h
  have h2 : Tracked κ E t0 (w.merge κ E (some r) ⟨f, false, false⟩) (b.merge (some r) f) := .merge (some r) h1 ht (κ.view_false E f).symm
  have h3 : ∀ (calls : List (List Letter)) (w : Merged Q L N M) (b : Ledger Q (Grid L N M)), Tracked κ E t0 w b →
      Tracked κ E t0 (calls.foldl (fun w ls => Merged.fft κ E w ls) w) b := by
    intro calls
    induction calls with
    | nil => intro w b h; exact h
    | cons ls calls ih => intro w b h; exact ih _ _ (.fft ls h)
  refine ⟨_, .rollBack (h3 calls _ _ h2) ht', ?_, ?_⟩
  · simp [Ledger.merge, Ledger.rollBack, Ledger.total]
  · funext x n
    simp [Ledger.merge, Ledger.rollBack, Ledger.sum]

theorem HoldsSums.shows [IsStrictOrderedRing Q] {κ : Kind} {E : Phase F} (hN : 0 < N) (hL : ∀ i, 0 < L i) (hb : κ.beta ≠ 0) {t0 : Bool} {w : Merged Q L N M} {c : Q}
    {S : Grid L N M} (h : HoldsSums κ E t0 w c S) (hc : 1 / 1000 < c) : w.toPlain.Shows κ E fun r n => c⁻¹ • S r n := by
  obtain ⟨b, h1, rfl, rfl⟩ := h
  have := (h1.agrees hN hL hb).data
  unfold Plain.Shows
  rw [this]
  unfold Ledger.value
  rw [if_pos hc]

/-- The sums of the contributions. -/
def weights {A : Type} (xs : List (Q × A)) : Q := (xs.map (·.1)).sum

def sums (xs : List (Q × Grid L N M)) : Grid L N M := fun r n => (xs.map fun x => x.1 • x.2 r n).sum

theorem contributions_pos [IsStrictOrderedRing Q] {A : Type} (pick : Version L N M → A) (v : ℕ) (xs : List (Version L N M)) :
    0 ≤ weights (contributions (Q := Q) pick v xs) ∧
      ((∃ x ∈ xs, x.ending = .well) → 1 / 1000 < weights (contributions (Q := Q) pick v xs)) := by
  induction xs generalizing v with
  | nil => exact ⟨le_refl _, by simp⟩
  | cons x xs ih =>
    have hpos : (1 / 1000 : Q) < ((v + 1 : ℕ) / ((v + 1 : ℕ) + 10)) := by
      have : (0 : Q) ≤ v := Nat.cast_nonneg v
      push_cast
      rw [div_lt_div_iff₀ (by norm_num) (by linarith)]
      linarith
    have hp0 : (0 : Q) < 1 / 1000 := by norm_num
    obtain ⟨h1, h2⟩ := ih (v + 1)
    unfold contributions
    by_cases hx : x.ending = .well
    · rw [if_pos hx]
      unfold weights at h1 ⊢
      simp only [List.map_cons, List.sum_cons]
      exact ⟨by linarith, fun _ => by linarith⟩
    · rw [if_neg hx]
      refine ⟨h1, ?_⟩
      rintro ⟨y, hy, hw⟩
      rcases List.mem_cons.1 hy with rfl | hy
      · exact absurd hw hx
      · exact h2 ⟨y, hy, hw⟩

/-- If a weight follows the versions, it holds the sums of the contributions. -/
theorem holds_loop (κ : Kinds) (E : Phase F) (mc : Bool) {N' : ℕ} (κ' : Kind) (t0 : Bool) (sel : Funcs Q L N M → Merged Q L N' M)
    (pick : Version L N M → Grid L N' M) (ok : Ending → Prop) (I : Merged Q L N' M → Prop)
    (step : ∀ (v : ℕ) (x : Version L N M) (s : Funcs Q L N M) (c : Q) (S : Grid L N' M), ok x.ending → I (sel s) → HoldsSums κ' E t0 (sel s) c S →
      let s' := if mc then s.versionMC κ E v x else s.versionDyson κ E v x
      I (sel s') ∧ if x.ending = .well then HoldsSums κ' E t0 (sel s') (c + v / (v + 10)) (fun r n => S r n + ((v : Q) / (v + 10)) • pick x r n)
        else HoldsSums κ' E t0 (sel s') c S) :
    ∀ (xs : List (Version L N M)) (v : ℕ) (s : Funcs Q L N M) (c : Q) (S : Grid L N' M), (∀ x ∈ xs, ok x.ending) → I (sel s) → HoldsSums κ' E t0 (sel s) c S →
      HoldsSums κ' E t0 (sel (s.loop κ E mc v xs)) (c + weights (contributions (Q := Q) pick v xs))
        (fun r n => S r n + sums (contributions (Q := Q) pick v xs) r n) := by
  intro xs
  induction xs with
  | nil =>
    intro v s c S _ _ h
    simpa [Funcs.loop, contributions, weights, sums] using h
  | cons x xs ih =>
    intro v s c S hok hI h
    obtain ⟨h1, h2⟩ := step (v + 1) x s c S (hok x (by simp)) hI h
    unfold Funcs.loop contributions
    by_cases hx : x.ending = .well
    · rw [if_pos hx] at h2 ⊢
      have h3 := ih (v + 1) _ _ _ (fun y hy => hok y (by simp [hy])) h1 h2
      have e1 : ∀ l, weights (((v + 1 : ℕ) / ((v + 1 : ℕ) + 10), pick x) :: l : List (Q × Grid L N' M)) = ((v + 1 : ℕ) / ((v + 1 : ℕ) + 10)) + weights l := fun l => by simp [weights]
      have e2 : ∀ l r n, sums (((v + 1 : ℕ) / ((v + 1 : ℕ) + 10), pick x) :: l : List (Q × Grid L N' M)) r n =
          ((v + 1 : ℕ) / ((v + 1 : ℕ) + 10) : Q) • pick x r n + sums l r n := fun l r n => by simp [sums]
      simp only [e1, e2, ← add_assoc]
      exact h3
    · rw [if_neg hx] at h2 ⊢
      exact ih (v + 1) _ _ _ (fun y hy => hok y (by simp [hy])) h1 h2

theorem holds_start (κ : Kind) (E : Phase F) (t0 : Bool) (f : Grid L N M) :
    HoldsSums κ E t0 (⟨⟨f, false, false⟩, none, none, none⟩ : Merged Q L N M) 0 (fun _ _ => 0) :=
  ⟨_, .new (κ.view_false E f).symm, rfl, by funext r n; simp [Ledger.sum]⟩

end

end Feyn
