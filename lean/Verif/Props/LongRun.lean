import Verif.Spec.LongRun
import Verif.Proof.Double

/-!
# Counters and timers of the main loop (C97)
-/

namespace Feyn

/-! ## Timers -/

/-- C97: within any hundred passes, however many went before, the timers are asked. -/
theorem C97_asks (k : ℕ) : ∃ j, k < j ∧ j ≤ k + 100 ∧ asksTimers j = true := by
  have hk : k / 4294967296 * 4294967296 + k % 4294967296 = k := Nat.div_add_mod' k 4294967296
  have hlt : k % 4294967296 < 4294967296 := Nat.mod_lt _ (by norm_num)
  generalize k / 4294967296 = q at hk
  generalize k % 4294967296 = r at hk hlt
  have hr : r / 100 * 100 + r % 100 = r := Nat.div_add_mod' r 100
  have hr2 : r % 100 < 100 := Nat.mod_lt _ (by norm_num)
  generalize r / 100 = a at hr
  generalize r % 100 = b at hr hr2
  by_cases h : a * 100 + 100 < 4294967296
  · refine ⟨q * 4294967296 + (a + 1) * 100, by omega, by omega, ?_⟩
    rw [asksTimers, Nat.mul_add_mod', Nat.mod_eq_of_lt (a := (a + 1) * 100) (by omega), Nat.mul_mod_left]
    rfl
  · refine ⟨(q + 1) * 4294967296, by omega, by omega, ?_⟩
    rw [asksTimers, Nat.mul_mod_left]
    rfl

/-- Once in 2^32 passes they are asked after 96 passes only. -/
theorem C97_overflow : asksTimers 4294967200 = true ∧ asksTimers 4294967296 = true ∧ ∀ j, 4294967200 < j → j < 4294967296 → asksTimers j = false := by
  refine ⟨by decide, by decide, fun j h1 h2 => ?_⟩
  rw [asksTimers, Nat.mod_eq_of_lt h2, beq_eq_false_iff_ne]
  omega

theorem timerRun_due {iv s : ℤ} {l : List (ℤ × ℤ)} {j : ℕ} {q : ℤ × ℤ} (hq : l[j]? = some q) (h : ∀ m ≤ j, (timerRun iv s l)[m]? = some false) : q.1 < s + iv := by
  induction l generalizing s j with
  | nil => simp at hq
  | cons a l ih =>
    have h0 := h 0 (by omega)
    simp only [timerRun, timerCheck, List.getElem?_cons_zero, Option.some.injEq] at h0
    split_ifs at h0 with hc
    cases j with
    | zero =>
      simp at hq
      subst hq
      omega
    | succ j =>
      refine ih (j := j) (by simpa using hq) fun m hm => ?_
      have := h (m + 1) (by omega)
      simpa [timerRun, timerCheck, hc] using this

theorem monotone2_cons {s : ℤ} {a : ℤ × ℤ} {l : List (ℤ × ℤ)} (h : Monotone2 s (a :: l)) : s ≤ a.1 ∧ a.1 ≤ a.2 ∧ Monotone2 s l ∧ Monotone2 a.2 l := by
  simp only [Monotone2, List.flatMap_cons, List.cons_append, List.nil_append, List.pairwise_cons, List.mem_cons] at h ⊢
  obtain ⟨h1, h2, h3, h4⟩ := h
  exact ⟨h1 _ (Or.inl rfl), h2 _ (Or.inl rfl), ⟨fun x hx => h1 x (Or.inr (Or.inr hx)), h4⟩, h3, h4⟩

theorem timerRun_apart {iv s : ℤ} {l : List (ℤ × ℤ)} (hm : Monotone2 s l) {j : ℕ} {q : ℤ × ℤ} (hq : l[j]? = some q) (h : (timerRun iv s l)[j]? = some true) :
    s + iv ≤ q.1 := by
  induction l generalizing s j with
  | nil => simp at hq
  | cons a l ih =>
    obtain ⟨h1, h2, h3, h4⟩ := monotone2_cons hm
    cases j with
    | zero =>
      simp only [timerRun, timerCheck, List.getElem?_cons_zero, Option.some.injEq] at h hq
      subst hq
      split_ifs at h with hc
      omega
    | succ j =>
      simp only [timerRun, timerCheck, List.getElem?_cons_succ] at h hq
      split_ifs at h with hc
      · exact ih h3 hq h
      · have := ih h4 hq h
        omega

/-- C97: if a timer runs out, it runs out again after its interval at the earliest. -/
theorem C97_apart {iv s : ℤ} {l : List (ℤ × ℤ)} (hm : Monotone2 s l) {i j : ℕ} (hij : i < j) {p q : ℤ × ℤ} (hp : l[i]? = some p) (hq : l[j]? = some q)
    (hi : (timerRun iv s l)[i]? = some true) (hj : (timerRun iv s l)[j]? = some true) : iv ≤ q.1 - p.2 := by
  induction l generalizing s i j with
  | nil => simp at hq
  | cons a l ih =>
    obtain ⟨h1, h2, h3, h4⟩ := monotone2_cons hm
    obtain ⟨j, rfl⟩ : ∃ k, j = k + 1 := ⟨j - 1, by omega⟩
    cases i with
    | zero =>
      simp only [timerRun, timerCheck, List.getElem?_cons_zero, List.getElem?_cons_succ, Option.some.injEq] at hi hp hj hq
      subst hp
      split_ifs at hi hj with hc
      have := timerRun_apart h4 hq hj
      omega
    | succ i =>
      simp only [timerRun, timerCheck, List.getElem?_cons_succ] at hi hp hj hq
      split_ifs at hi hj with hc
      · exact ih h3 (by omega) hp hq hi hj
      · exact ih h4 (by omega) hp hq hi hj

/-- C97: and at the first question after its interval. For any readings of the clock: a timer that has not run out since the call `i` has been asked before the end of the interval
only. -/
theorem C97_due {iv s : ℤ} {l : List (ℤ × ℤ)} {i j : ℕ} (hij : i < j) {p q : ℤ × ℤ} (hp : l[i]? = some p) (hq : l[j]? = some q)
    (hi : (timerRun iv s l)[i]? = some true) (hj : ∀ m, i < m → m ≤ j → (timerRun iv s l)[m]? = some false) : q.1 < p.2 + iv := by
  induction l generalizing s i j with
  | nil => simp at hq
  | cons a l ih =>
    obtain ⟨j, rfl⟩ : ∃ k, j = k + 1 := ⟨j - 1, by omega⟩
    cases i with
    | zero =>
      simp only [timerRun, timerCheck, List.getElem?_cons_zero, List.getElem?_cons_succ, Option.some.injEq] at hi hp hq
      subst hp
      split_ifs at hi with hc
      refine timerRun_due hq fun m hm => ?_
      simpa [timerRun, timerCheck, hc] using hj (m + 1) (by omega) (by omega)
    | succ i =>
      simp only [timerRun, List.getElem?_cons_succ] at hi hp hq
      refine ih (i := i) (by omega) hp hq hi fun m h1 h2 => ?_
      simpa [timerRun] using hj (m + 1) (by omega) (by omega)

/-- The same for the time since the timer was started. -/
theorem C97_first {iv s : ℤ} {l : List (ℤ × ℤ)} {j : ℕ} {q : ℤ × ℤ} (hq : l[j]? = some q) (h : ∀ m ≤ j, (timerRun iv s l)[m]? = some false) : q.1 < s + iv :=
  timerRun_due hq h

/-- **C97** refuted for a clock that is set back: after that nothing is saved and no message is read for as long as the clock was set back in addition to the interval. -/
theorem C97_refuted_clock (iv s back : ℤ) (l : List ℤ) (h : ∀ t ∈ l, t < s + iv + back) :
    timerRun iv s (l.map fun t => (t - back, t - back)) = l.map fun _ => false := by
  induction l with
  | nil => rfl
  | cons a l ih =>
    have h1 := h a (by simp)
    have hc : a - back - s < iv := by omega
    simp only [List.map_cons, timerRun, timerCheck, if_pos hc]
    rw [ih fun t ht => h t (List.mem_cons_of_mem _ ht)]

/-! ## Counters -/

open scoped Classical in
theorem run_local (c : LocalCounts) (l : List (Option (Bool × ℕ))) (hc : ∀ g o, c g o ≤ 2147483647) :
    c.run l = if (∀ g o, some (g, o) ∈ l → o < 10 ∧ c g o + times l g o ≤ 2147483647) then .ok (fun g o => c g o + times l g o) else .ub := by
  classical
  induction l generalizing c with
  | nil => simp [LocalCounts.run, times]
  | cons x l ih =>
    rw [LocalCounts.run]
    cases x with
    | none =>
      rw [LocalCounts.add, Res.ok_bind, ih c hc]
      simp [times]
    | some x =>
      obtain ⟨g, o⟩ := x
      rw [LocalCounts.add]
      by_cases ho : o ≥ 10
      · rw [if_pos ho, Res.ub_bind, if_neg]
        intro h
        have := (h g o (by simp)).1
        omega
      rw [if_neg ho]
      by_cases hb : c g o + 1 > 2147483647
      · rw [if_pos hb, Res.ub_bind, if_neg]
        intro h
        have := (h g o (by simp)).2
        simp [times] at this
        omega
      rw [if_neg hb, Res.ok_bind, ih _ (fun g' o' => by
        by_cases he : g' = g ∧ o' = o
        · simp only [if_pos he]; omega
        · simp only [if_neg he]; exact hc _ _)]
      have key : ∀ g' o', ((if g' = g ∧ o' = o then c g o + 1 else c g' o') + (times l g' o' : ℤ)) = c g' o' + times (some (g, o) :: l) g' o' := by
        intro g' o'
        by_cases he : g' = g ∧ o' = o
        · obtain ⟨rfl, rfl⟩ := he
          simp [times]
          ring
        · have hne : ¬ (g = g' ∧ o = o') := fun h => he ⟨h.1.symm, h.2.symm⟩
          simp [times, he, hne]
      simp only [key]
      congr 1
      rw [eq_iff_iff]
      constructor
      · intro h g' o' hm
        rcases List.mem_cons.1 hm with he | hm
        · simp only [Option.some.injEq, Prod.mk.injEq] at he
          obtain ⟨rfl, rfl⟩ := he
          refine ⟨by omega, ?_⟩
          by_cases hin : some (g', o') ∈ l
          · exact (h g' o' hin).2
          · have : times l g' o' = 0 := List.count_eq_zero.2 hin
            simp only [times, List.count_cons_self] at this ⊢
            push_cast
            omega
        · exact h g' o' hm
      · intro h g' o' hm
        exact h g' o' (List.mem_cons_of_mem _ hm)

open scoped Classical in
/-- C97: the counters of the main loop are right as long as no kind of diagram has been measured more than 2^31 - 1 times and the order is below its maximum, and exactly so long;
otherwise the behaviour is undefined. -/
theorem C97_local_partial (l : List (Option (Bool × ℕ))) :
    LocalCounts.run (fun _ _ => 0) l =
      if (∀ g o, some (g, o) ∈ l → o < 10 ∧ times l g o ≤ 2147483647) then .ok (fun g o => (times l g o : ℤ)) else .ub := by
  rw [run_local _ _ fun _ _ => by norm_num]
  simp only [zero_add]
  congr 1
  rw [eq_iff_iff]
  exact forall_congr' fun g => forall_congr' fun o => imp_congr_right fun _ => and_congr_right fun _ => by norm_cast

/-- **C97** refuted for runs of any length: a run that measures a diagram of one kind 2^31 times has undefined behaviour. -/
theorem C97_refuted_local (g : Bool) (o n : ℕ) (hn : 2147483648 ≤ n) : LocalCounts.run (fun _ _ => 0) (List.replicate n (some (g, o))) = .ub := by
  classical
  rw [C97_local_partial, if_neg]
  intro h
  have := (h g o (by simp; omega)).2
  simp [times] at this
  omega

/-- The limit of a `double` as a counter. -/
theorem rnd_stuck : rnd (9007199254740992 + 1) = 9007199254740992 := by decide +kernel

/-- C97: the counters that are numbers of the type `double` are exact up to 2^53 and then stand still. -/
theorem C97_counts (k n : ℕ) (hk : k ≤ 2 ^ 53) : countD k n = (min (k + n) (2 ^ 53) : ℕ) := by
  induction n with
  | zero => rw [countD, add_zero, min_eq_left hk]
  | succ n ih =>
    rw [countD, ih]
    rcases lt_trichotomy (k + n + 1) (2 ^ 53) with h | h | h
    · rw [min_eq_left (by omega), min_eq_left (by omega)]
      have := rnd_exact (m := ((k + n + 1 : ℕ) : ℤ)) (k := 0) (by rw [abs_of_nonneg (by positivity)]; exact_mod_cast h) (by norm_num)
      rw [zpow_zero, mul_one] at this
      push_cast at this ⊢
      rw [this]
      ring
    · rw [min_eq_left (by omega), min_eq_right (by omega)]
      have := rnd_exact (m := 1) (k := 53) (by norm_num) (by norm_num)
      have e : (((k + n : ℕ) : ℚ) + 1) = ((1 : ℤ) : ℚ) * 2 ^ (53 : ℤ) := by
        have : ((k + n + 1 : ℕ) : ℚ) = ((2 ^ 53 : ℕ) : ℚ) := by rw [h]
        push_cast at this ⊢
        rw [this]
        norm_num
      rw [e, this]
      norm_num
    · rw [min_eq_right (by omega), min_eq_right (by omega)]
      have := rnd_stuck
      norm_num at this ⊢
      exact this

/-! ## Examples -/

/-- An interval of 10 seconds, the clock read at 3, 9, 12, 15, 21, 22: the timer runs out at 12 and 22. -/
example : timerRun 10 0 [(3, 3), (9, 9), (12, 12), (15, 15), (21, 21), (22, 22)] = [false, false, true, false, false, true] := by decide

example : Monotone2 0 [(3, 3), (9, 9), (12, 12), (15, 15), (21, 21), (22, 22)] := by unfold Monotone2; decide

example : (22 : ℤ) - 12 ≥ 10 :=
  C97_apart (l := [(3, 3), (9, 9), (12, 12), (15, 15), (21, 21), (22, 22)]) (s := 0) (by unfold Monotone2; decide) (i := 2) (j := 5) (p := (12, 12)) (q := (22, 22))
    (by norm_num) rfl rfl (by decide) (by decide)

/-- Two propagators of order one, one interaction of order three and a worm. -/
example : ∃ c, LocalCounts.run (fun _ _ => 0) [some (true, 1), none, some (false, 3), some (true, 1)] = .ok c ∧ c true 1 = 2 ∧ c false 3 = 1 ∧ c true 3 = 0 := ⟨_, rfl, by decide⟩

end Feyn
