import Verif.Spec.Rng
import Mathlib.Data.List.FinRange
import Mathlib.Data.List.TakeWhile
import Mathlib.Tactic.IntervalCases

/-! # The text of the generator is read back -/

namespace Feyn

theorem isDigitByte_digitByte {n : ℕ} (h : n < 10) : isDigitByte (digitByte n) = true := by
  interval_cases n <;> decide

theorem digitByte_val {n : ℕ} (h : n < 10) : (digitByte n).val - 48 = n := by
  interval_cases n <;> decide

theorem decimal_ne (n : ℕ) : decimal n ≠ [] := by
  rw [decimal]; split <;> simp

theorem decimal_digits (n : ℕ) : ∀ c ∈ decimal n, isDigitByte c = true := by
  induction n using Nat.strong_induction_on with
  | _ n ih =>
    rw [decimal]
    split
    · next h => simpa using isDigitByte_digitByte h
    · next h =>
      intro c hc
      rcases List.mem_append.1 hc with hc | hc
      · exact ih _ (by omega) c hc
      · simp only [List.mem_singleton] at hc
        subst hc
        exact isDigitByte_digitByte (by omega)

theorem digitsValue_decimal (n : ℕ) : digitsValue (decimal n) = n := by
  induction n using Nat.strong_induction_on with
  | _ n ih =>
    rw [decimal]
    split
    · next h => simpa [digitsValue] using digitByte_val h
    · next h =>
      have := ih (n / 10) (by omega)
      unfold digitsValue at this ⊢
      rw [List.foldl_append, this]
      simp only [List.foldl_cons, List.foldl_nil, digitByte_val (show n % 10 < 10 by omega)]
      omega

theorem digit_range {c : Byte} (h : isDigitByte c = true) : 48 ≤ c.val ∧ c.val ≤ 57 := by
  simp only [isDigitByte, Bool.and_eq_true, decide_eq_true_eq, Fin.le_def] at h
  exact h

theorem digit_not_plus {c : Byte} (h : isDigitByte c = true) : c ≠ 43 := by
  rintro rfl; exact absurd h (by decide)

theorem digit_not_minus {c : Byte} (h : isDigitByte c = true) : c ≠ 45 := by
  rintro rfl; exact absurd h (by decide)

theorem digit_not_sign {c : Byte} (h : isDigitByte c = true) : (c = 43 || c = 45) = false := by
  simp [digit_not_plus h, digit_not_minus h]

theorem digit_not_space {c : Byte} (h : isDigitByte c = true) : isSpace c = false := by
  have := digit_range h
  have h1 : c ≠ 32 := by rintro rfl; exact absurd h (by decide)
  have h2 : ¬ c ≤ 13 := by rw [Fin.le_def]; show ¬ c.val ≤ 13; omega
  simp [isSpace, h1, h2]

theorem takeWhile_digits {l r : List Byte} (hl : ∀ c ∈ l, isDigitByte c = true) (hr : ∀ c ∈ r.head?, isDigitByte c = false) :
    (l ++ r).takeWhile isDigitByte = l ∧ (l ++ r).dropWhile isDigitByte = r := by
  induction l with
  | nil =>
    cases r with
    | nil => simp
    | cons c r => simp [hr c (by simp)]
  | cons a l ih =>
    obtain ⟨h1, h2⟩ := ih fun c hc => hl c (List.mem_cons_of_mem _ hc)
    have := hl a (by simp)
    simp [this, h1, h2]

/-- Reading a number written before. -/
theorem readU64_decimal (sp : List Byte) (hsp : ∀ c ∈ sp, isSpace c = true) (n old : U64) (r : List Byte)
    (hr : ∀ c ∈ r.head?, isDigitByte c = false) :
    readU64 ⟨sp ++ decimal n.toNat ++ r, false, false⟩ old = (⟨r, r.isEmpty, false⟩, n) := by
  have hd : (sp ++ decimal n.toNat ++ r).dropWhile isSpace = decimal n.toNat ++ r := by
    induction sp with
    | nil =>
      have hne := decimal_ne n.toNat
      have hall := decimal_digits n.toNat
      revert hne hall
      cases decimal n.toNat with
      | nil => simp
      | cons c l => intro _ h; simp [digit_not_space (h c (by simp))]
    | cons a sp ih =>
      have := hsp a (by simp)
      simp only [List.cons_append, List.dropWhile_cons, this, if_true]
      exact ih fun c hc => hsp c (List.mem_cons_of_mem _ hc)
  obtain ⟨h1, h2⟩ := takeWhile_digits (decimal_digits n.toNat) hr
  have hv := digitsValue_decimal n.toNat
  have hne := decimal_ne n.toNat
  have hall := decimal_digits n.toNat
  simp only [readU64, Bool.or_self, Bool.false_eq_true, if_false, hd]
  revert h1 h2 hv hne hall
  cases decimal n.toNat with
  | nil => simp
  | cons c l =>
    intro h1 h2 hv _ hall
    have hc := hall c (by simp)
    simp only [List.cons_append] at h1 h2 ⊢
    simp only [digit_not_plus hc, digit_not_minus hc, decide_false, Bool.or_self, Bool.false_eq_true, if_false, h1, h2, hv, List.isEmpty_cons]
    rw [if_neg (by have := n.isLt; omega)]
    simp

/-- Reading a list of words written before. -/
theorem foldl_readWord (f : Fin 624 → U64) (tail : List Byte) (L : List (Fin 624)) (sp : List Byte) (hsp : ∀ c ∈ sp, isSpace c = true)
    (x : Fin 624 → U64) :
    ∃ sp', (∀ c ∈ sp', isSpace c = true) ∧
      L.foldl readWord (⟨sp ++ (L.map fun i => decimal (f i).toNat ++ [32]).flatten ++ tail, false, false⟩, x) =
        (⟨sp' ++ tail, false, false⟩, fun i => if i ∈ L then f i else x i) := by
  induction L generalizing sp x with
  | nil => exact ⟨sp, hsp, by simp⟩
  | cons a L ih =>
    obtain ⟨sp', h', e⟩ := ih [32] (by simp [isSpace]) (Function.update x a (f a))
    refine ⟨sp', h', ?_⟩
    rw [List.foldl_cons]
    have hr := readU64_decimal sp hsp (f a) (x a) ([32] ++ (L.map fun i => decimal (f i).toNat ++ [32]).flatten ++ tail)
      (by simp [isDigitByte])
    have hs : sp ++ ((a :: L).map fun i => decimal (f i).toNat ++ [32]).flatten ++ tail =
        sp ++ decimal (f a).toNat ++ ([32] ++ (L.map fun i => decimal (f i).toNat ++ [32]).flatten ++ tail) := by simp
    rw [readWord, hs, hr]
    simp only [List.cons_append, List.nil_append, List.isEmpty_cons] at e ⊢
    rw [e]
    congr 1
    funext i
    by_cases hi : i = a
    · subst hi; simp
    · simp [hi]

/-- The text of a generator, read into any other one. -/
theorem rngRead_rngText (g old : Mt) : rngRead ⟨rngText g, false, false⟩ old = (⟨[], true, false⟩, g) := by
  obtain ⟨sp, hsp, e⟩ := foldl_readWord g.x (decimal g.p.toNat) (List.finRange 624) [] (by simp) old.x
  have ht : rngText g = [] ++ ((List.finRange 624).map fun i => decimal (g.x i).toNat ++ [32]).flatten ++ decimal g.p.toNat := by
    rw [rngText, List.ofFn_eq_map]; simp
  have hr := readU64_decimal sp hsp g.p old.p [] (by simp)
  rw [List.append_nil] at hr
  simp only [rngRead, ht, e, hr, List.mem_finRange, if_true, List.isEmpty_nil]

theorem space_nonzero : (32 : Byte) ≠ 0 := by decide

theorem digit_nonzero {c : Byte} (h : isDigitByte c = true) : c ≠ 0 := by
  rintro rfl; exact absurd h (by decide)

/-- The text has no zero bytes. -/
theorem cString_rngText (g : Mt) : cString (rngText g) = rngText g := by
  rw [cString, List.takeWhile_eq_self_iff]
  intro c hc
  simp only [rngText, List.mem_append, List.mem_flatten, List.mem_ofFn] at hc
  simp only [decide_not, Bool.not_eq_true', decide_eq_false_iff_not]
  rcases hc with ⟨l, ⟨i, rfl⟩, hc⟩ | hc
  · rcases List.mem_append.1 hc with hc | hc
    · exact digit_nonzero (decimal_digits _ c hc)
    · simp only [List.mem_singleton] at hc; subst hc; exact space_nonzero
  · exact digit_nonzero (decimal_digits _ c hc)

/-! ## Incomplete texts -/

theorem numbersIn_dropWhile (l : List Byte) : numbersIn false (l.dropWhile isSpace) = numbersIn false l := by
  induction l with
  | nil => rfl
  | cons c l ih =>
    rw [List.dropWhile_cons]
    split
    · next h =>
      rw [ih, numbersIn, if_neg]
      intro hd
      rw [digit_not_space hd] at h
      simp at h
    · rfl

theorem numbersIn_digits (b : Bool) (l : List Byte) :
    numbersIn b l = (if b || (l.takeWhile isDigitByte).isEmpty then 0 else 1) + numbersIn false (l.dropWhile isDigitByte) := by
  induction l generalizing b with
  | nil => simp [numbersIn]
  | cons c l ih =>
    rw [numbersIn, List.takeWhile_cons, List.dropWhile_cons]
    by_cases h : isDigitByte c = true
    · rw [if_pos h, if_pos h, if_pos h, ih true]
      cases b <;> simp
    · rw [if_neg h, if_neg h, if_neg h, numbersIn, if_neg h]
      simp

/-- A read without error takes one number. -/
theorem readU64_numbers {s s' : InStream} {old v : U64} (h : readU64 s old = (s', v)) (hf : s'.fail = false) :
    s.fail = false ∧ numbersIn false s.rest = numbersIn false s'.rest + 1 := by
  unfold readU64 at h
  by_cases h0 : (s.eof || s.fail) = true
  · rw [if_pos h0] at h
    obtain ⟨rfl, -⟩ := Prod.mk.inj h
    simp at hf
  rw [if_neg h0] at h
  have h00 : s.fail = false := by
    cases hh : s.fail
    · rfl
    · simp [hh] at h0
  refine ⟨h00, ?_⟩
  have hd := numbersIn_dropWhile s.rest
  revert h hd
  cases s.rest.dropWhile isSpace with
  | nil => intro h _; obtain ⟨rfl, -⟩ := Prod.mk.inj h; simp at hf
  | cons c l =>
    intro h hd
    simp only at h
    have hb : numbersIn false (if c = 43 || c = 45 then l else c :: l) = numbersIn false (c :: l) := by
      by_cases hc : (c = 43 || c = 45) = true
      · rw [if_pos hc]
        have : ¬ isDigitByte c = true := fun hd => by rw [digit_not_sign hd] at hc; simp at hc
        rw [numbersIn, if_neg this]
      · rw [if_neg hc]
    rw [hd] at hb
    revert h hb
    generalize (if c = 43 || c = 45 then l else c :: l) = body
    intro h hb
    rw [← hb, numbersIn_digits]
    by_cases h1 : (body.takeWhile isDigitByte).isEmpty = true
    · rw [if_pos h1] at h; obtain ⟨rfl, -⟩ := Prod.mk.inj h; simp at hf
    · rw [if_neg h1] at h
      split at h
      · obtain ⟨rfl, -⟩ := Prod.mk.inj h; simp at hf
      · obtain ⟨rfl, -⟩ := Prod.mk.inj h
        simp only [Bool.false_or, if_neg h1]
        omega

theorem foldl_readWord_numbers (L : List (Fin 624)) (r : InStream × (Fin 624 → U64)) (hf : (L.foldl readWord r).1.fail = false) :
    r.1.fail = false ∧ numbersIn false r.1.rest = numbersIn false (L.foldl readWord r).1.rest + L.length := by
  induction L generalizing r with
  | nil => exact ⟨hf, by simp⟩
  | cons a L ih =>
    rw [List.foldl_cons] at hf ⊢
    obtain ⟨h1, h2⟩ := ih _ hf
    have h3 := readU64_numbers (s := r.1) (old := r.2 a) (s' := (readWord r a).1) (v := (readU64 r.1 (r.2 a)).2) rfl h1
    refine ⟨h3.1, ?_⟩
    rw [h3.2, h2, List.length_cons]
    omega

theorem rngRead_numbers {s : InStream} {g : Mt} (h : (rngRead s g).1.fail = false) : 625 ≤ numbersIn false s.rest := by
  have hf := foldl_readWord_numbers (List.finRange 624) (s, g.x)
  rw [List.length_finRange] at hf
  simp only [rngRead] at h
  revert h hf
  generalize (List.finRange 624).foldl readWord (s, g.x) = r
  intro h hf
  have h1 := readU64_numbers (s := r.1) (old := g.p) (s' := (readU64 r.1 g.p).1) (v := (readU64 r.1 g.p).2) rfl h
  have h2 := (hf h1.1).2
  dsimp only at h2
  omega

end Feyn
