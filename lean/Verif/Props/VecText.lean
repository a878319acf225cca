import Verif.Spec.VecText
import Verif.Proof.RngText
import Mathlib.Tactic.Linarith
import Mathlib.Tactic.NormNum

/-! # The text of vectors and momenta (C102) -/

namespace Feyn

private theorem drop_spaces {sp : List Byte} (h : ∀ c ∈ sp, isSpace c = true) (a : Byte) (ha : isSpace a = false) (l : List Byte) : (sp ++ a :: l).dropWhile isSpace = a :: l := by
  induction sp with
  | nil => simp [ha]
  | cons b sp ih =>
    rw [List.cons_append, List.dropWhile_cons, if_pos (h b (by simp))]
    exact ih fun c hc => h c (List.mem_cons_of_mem _ hc)

private theorem split_spaces (l : List Byte) : ∃ sp, (∀ c ∈ sp, isSpace c = true) ∧ l = sp ++ l.dropWhile isSpace :=
  ⟨l.takeWhile isSpace, fun _ hc => List.mem_takeWhile_imp hc, (List.takeWhile_append_dropWhile).symm⟩

private theorem readInt_text {n : ℤ} {t : List Byte} (h : IsIntText n t) (hn : IsInt n) {r : List Byte} (hr : ∀ c ∈ r.head?, isDigitByte c = false) (old : ℤ) :
    readInt ⟨t ++ r, false, false⟩ old = (⟨r, r.isEmpty, false⟩, n) := by
  obtain ⟨sp, ds, hsp, hne, hds, h⟩ := h
  obtain ⟨h1, h2⟩ := takeWhile_digits hds hr
  have hie : ds.isEmpty = false := by cases ds <;> simp_all
  obtain ⟨g1, g2⟩ := hn
  unfold readInt
  rcases h with ⟨rfl, rfl⟩ | ⟨rfl, rfl⟩ | ⟨rfl, rfl⟩
  · obtain ⟨a, l, rfl⟩ := List.exists_cons_of_ne_nil hne
    have ha := hds a (by simp)
    have e : sp ++ a :: l ++ r = sp ++ a :: (l ++ r) := by simp
    rw [List.cons_append] at h1 h2
    simp only [Bool.or_self, Bool.false_eq_true, if_false, e, drop_spaces hsp a (digit_not_space ha)]
    simp only [digit_not_plus ha, digit_not_minus ha, decide_false, Bool.or_self, Bool.false_eq_true, if_false, h1, h2, hie]
    rw [if_neg (by omega), if_neg (by omega)]
  · have e : sp ++ 43 :: ds ++ r = sp ++ 43 :: (ds ++ r) := by simp
    simp only [Bool.or_self, Bool.false_eq_true, if_false, e, drop_spaces hsp 43 (by decide)]
    simp only [show ¬ (43 : Byte) = 45 by decide, decide_true, Bool.true_or, if_true, Bool.false_eq_true, if_false, h1, h2, hie]
    rw [if_neg (by omega), if_neg (by omega)]
  · have e : sp ++ 45 :: ds ++ r = sp ++ 45 :: (ds ++ r) := by simp
    simp only [Bool.or_self, Bool.false_eq_true, if_false, e, drop_spaces hsp 45 (by decide)]
    simp only [decide_true, Bool.or_true, if_true, Bool.false_eq_true, if_false, h1, h2, hie]
    rw [if_neg (by omega), if_neg (by omega)]

private theorem readInt_ok {s : InStream} {old : ℤ} (h : (readInt s old).1.fail = false) :
    s.eof = false ∧ s.fail = false ∧ IsInt (readInt s old).2 ∧ ∃ t, s.rest = t ++ (readInt s old).1.rest ∧ IsIntText (readInt s old).2 t ∧
      ∀ c ∈ (readInt s old).1.rest.head?, isDigitByte c = false := by
  obtain ⟨rest, eof, fail⟩ := s
  unfold readInt at h ⊢
  cases eof
  swap
  · simp at h
  cases fail
  swap
  · simp at h
  simp only [Bool.or_self, Bool.false_eq_true, if_false] at h ⊢
  obtain ⟨sp, hsp, hsplit⟩ := split_spaces rest
  cases hd : rest.dropWhile isSpace with
  | nil => rw [hd] at h; simp at h
  | cons c l =>
    rw [hd] at h hsplit
    simp only at h ⊢
    generalize hb : (if (decide (c = 43) || decide (c = 45)) = true then l else c :: l) = body at h ⊢
    have htw : ∀ x ∈ body.takeWhile isDigitByte, isDigitByte x = true := fun _ hx => List.mem_takeWhile_imp hx
    have hbody : body.takeWhile isDigitByte ++ body.dropWhile isDigitByte = body := List.takeWhile_append_dropWhile
    have hhead : ∀ x ∈ (body.dropWhile isDigitByte).head?, isDigitByte x = false := fun x hx => by
      have := List.head?_dropWhile_not isDigitByte body
      rw [Option.mem_def] at hx
      rw [hx] at this
      simpa using this
    generalize body.takeWhile isDigitByte = ds at h htw hbody ⊢
    generalize body.dropWhile isDigitByte = r at h hbody hhead ⊢
    generalize hN : (if c = 45 then -(digitsValue ds : ℤ) else digitsValue ds) = N at h ⊢
    split at h
    · simp at h
    · next h0 =>
      rw [if_neg h0]
      split at h
      · simp at h
      · next h1 =>
        rw [if_neg h1]
        split at h
        · simp at h
        · next h2 =>
          rw [if_neg h2]
          have hne : ds ≠ [] := by rintro rfl; simp at h0
          refine ⟨trivial, trivial, ⟨by simpa using h2, by simpa using h1⟩, ?_⟩
          by_cases hp : c = 43
          · subst hp
            have : l = body := by rw [← hb]; rfl
            exact ⟨sp ++ 43 :: ds, by rw [hsplit, this, ← hbody]; simp, ⟨sp, ds, hsp, hne, htw, .inr (.inl ⟨rfl, by rw [← hN]; rfl⟩)⟩, hhead⟩
          · by_cases hm : c = 45
            · subst hm
              have : l = body := by rw [← hb]; rfl
              exact ⟨sp ++ 45 :: ds, by rw [hsplit, this, ← hbody]; simp, ⟨sp, ds, hsp, hne, htw, .inr (.inr ⟨rfl, by rw [← hN]; rfl⟩)⟩, hhead⟩
            · have : c :: l = body := by rw [← hb, if_neg (by simp [hp, hm])]
              exact ⟨sp ++ ds, by rw [hsplit, this, ← hbody]; simp, ⟨sp, ds, hsp, hne, htw, .inl ⟨rfl, by rw [← hN, if_neg hm]⟩⟩, hhead⟩

private theorem readByte_ok {s : InStream} {old : Byte} (h : (readByte s old).1.fail = false) :
    s.fail = false ∧ ∃ sp, (∀ c ∈ sp, isSpace c = true) ∧ s.rest = sp ++ (readByte s old).2 :: (readByte s old).1.rest := by
  obtain ⟨rest, eof, fail⟩ := s
  unfold readByte at h ⊢
  cases eof
  swap
  · simp at h
  cases fail
  swap
  · simp at h
  simp only [Bool.or_self, Bool.false_eq_true, if_false] at h ⊢
  obtain ⟨sp, hsp, hsplit⟩ := split_spaces rest
  cases hd : rest.dropWhile isSpace with
  | nil => rw [hd] at h; simp at h
  | cons c l => exact ⟨trivial, sp, hsp, by rw [hd] at hsplit; exact hsplit⟩

private theorem readTail_length (s : InStream) (sep : Byte) (old : List ℤ) : (readTail s sep old).2.length = old.length := by
  induction old generalizing s sep with
  | nil => rfl
  | cons o l ih => simp [readTail, ih]

private theorem readTail_fail (s : InStream) (sep : Byte) (old : List ℤ) (h : (readTail s sep old).1.fail = false) : s.fail = false := by
  induction old generalizing s sep with
  | nil => exact h
  | cons o l ih =>
    have h1 := ih _ _ h
    split at h1
    · exact (readByte_ok (readInt_ok h1).2.1).1
    · simp at h1

private theorem readTail_ok {n : ℤ} {t : List Byte} (hn : IsIntText n t) (s : InStream) (sep : Byte) (old : List ℤ) (h : (readTail s sep old).1.fail = false)
    (hs : ∀ c ∈ s.rest.head?, isDigitByte c = false) :
    (∀ m ∈ (readTail s sep old).2, IsInt m) ∧ (∃ u, t ++ s.rest = u ++ (readTail s sep old).1.rest ∧ IsVecText (n :: (readTail s sep old).2) u) ∧
      ∀ c ∈ (readTail s sep old).1.rest.head?, isDigitByte c = false := by
  induction old generalizing s sep n t with
  | nil => exact ⟨by simp [readTail], ⟨t, rfl, .one hn⟩, hs⟩
  | cons o l ih =>
    rw [readTail] at h ⊢
    simp only at h ⊢
    have h1 := readTail_fail _ _ _ h
    split at h1
    · next h44 =>
      rw [if_pos h44] at h ⊢
      obtain ⟨k1, k2, k3, t', k4, k5, k6⟩ := readInt_ok h1
      obtain ⟨_, sp, hsp, hs'⟩ := readByte_ok k2
      obtain ⟨q1, ⟨u, q2, q3⟩, q4⟩ := ih k5 _ _ h k6
      refine ⟨?_, ⟨t ++ sp ++ 44 :: u, ?_, .more hn hsp q3⟩, q4⟩
      · intro m hm
        rcases List.mem_cons.1 hm with rfl | hm
        · exact k3
        · exact q1 m hm
      · rw [hs', k4, q2, h44]
        simp
    · simp at h1

/-- **C102.** A vector is read only from a text of its components: whatever the text and the vector before, if no flag of a failure is set, what was read is a text of the components that the
vector has now, each of them an `int`, and the stream stands behind it. -/
theorem C102_accepted (t : List Byte) (sep : Byte) {old : List ℤ} (ho : old ≠ []) (h : (readVec ⟨t, false, false⟩ sep old).1.fail = false) :
    (readVec ⟨t, false, false⟩ sep old).2.length = old.length ∧ (∀ n ∈ (readVec ⟨t, false, false⟩ sep old).2, IsInt n) ∧
      ∃ u, t = u ++ (readVec ⟨t, false, false⟩ sep old).1.rest ∧ IsVecText (readVec ⟨t, false, false⟩ sep old).2 u := by
  obtain ⟨o, l, rfl⟩ := List.exists_cons_of_ne_nil ho
  simp only [readVec] at h ⊢
  obtain ⟨_, _, k3, t', k4, k5, k6⟩ := readInt_ok (readTail_fail _ _ _ h)
  obtain ⟨q1, ⟨u, q2, q3⟩, _⟩ := readTail_ok k5 _ sep l h k6
  refine ⟨by simp [readTail_length], ?_, u, ?_, q3⟩
  · intro m hm
    rcases List.mem_cons.1 hm with rfl | hm
    · exact k3
    · exact q1 m hm
  · rw [← q2]; exact k4

/-- **C102.** Every text of components that are `int`s is read, whatever the vector before and whatever follows the text, if it is not another digit. -/
theorem C102_texts {v : List ℤ} {t : List Byte} (h : IsVecText v t) (hv : ∀ n ∈ v, IsInt n) {r : List Byte} (hr : ∀ c ∈ r.head?, isDigitByte c = false) (sep : Byte) {old : List ℤ}
    (ho : old.length = v.length) : readVec ⟨t ++ r, false, false⟩ sep old = (⟨r, r.isEmpty, false⟩, v) := by
  induction h generalizing sep old with
  | @one n t h =>
    obtain ⟨o, rfl⟩ := List.length_eq_one_iff.1 ho
    simp [readVec, readTail, readInt_text h (hv n (by simp)) hr]
  | @more n m l t sp u h hsp hu ih =>
    obtain _ | ⟨o, _ | ⟨o', old⟩⟩ := old
    · simp at ho
    · simp at ho
    have e : t ++ sp ++ 44 :: u ++ r = t ++ (sp ++ 44 :: (u ++ r)) := by simp
    have hh : ∀ c ∈ (sp ++ 44 :: (u ++ r)).head?, isDigitByte c = false := by
      intro c hc
      cases sp with
      | nil => simp at hc; subst hc; decide
      | cons a sp =>
        simp at hc
        subst hc
        have := hsp a (by simp)
        by_contra hx
        rw [digit_not_space (by simpa using hx)] at this
        exact Bool.false_ne_true this
    have he : (sp ++ 44 :: (u ++ r)).isEmpty = false := by cases sp <;> rfl
    have key := ih (fun k hk => hv k (List.mem_cons_of_mem _ hk)) 44 (old := o' :: old) (by simpa using ho)
    simp only [readVec] at key
    rw [readVec]
    simp only [e, readInt_text h (hv n (by simp)) hh, he]
    rw [readTail]
    have hb : readByte ⟨sp ++ 44 :: (u ++ r), false, false⟩ sep = (⟨u ++ r, false, false⟩, 44) := by
      unfold readByte
      simp [drop_spaces hsp 44 (by decide)]
    simp only [hb, if_true]
    simp only [Prod.mk.injEq, List.cons.injEq] at key ⊢
    exact ⟨key.1, trivial, key.2.1, key.2.2⟩

private theorem intText_is (n : ℤ) : IsIntText n (intText n) := by
  unfold intText
  refine ⟨[], decimal n.natAbs, by simp, decimal_ne _, decimal_digits _, ?_⟩
  rw [digitsValue_decimal]
  split
  · exact .inr (.inr ⟨rfl, by omega⟩)
  · exact .inl ⟨rfl, by omega⟩

private theorem vecText_is : ∀ {v : List ℤ}, v ≠ [] → IsVecText v (vecText v)
  | [n], _ => .one (intText_is n)
  | n :: m :: l, _ => by
    have := IsVecText.more (sp := []) (intText_is n) (by simp) (vecText_is (v := m :: l) (by simp))
    rw [vecText]
    simpa using this

/-- **C102.** What a vector writes is read back as the same vector, whatever the vector that reads it had before, and what follows is left in the stream. -/
theorem C102_read {v : List ℤ} (hv : ∀ n ∈ v, IsInt n) (hne : v ≠ []) {r : List Byte} (hr : ∀ c ∈ r.head?, isDigitByte c = false) (sep : Byte) {old : List ℤ} (ho : old.length = v.length) :
    readVec ⟨vecText v ++ r, false, false⟩ sep old = (⟨r, r.isEmpty, false⟩, v) := C102_texts (vecText_is hne) hv hr sep ho

/-- **C102.** Different vectors have different texts. -/
theorem C102_injective {v w : List ℤ} (hv : ∀ n ∈ v, IsInt n) (hw : ∀ n ∈ w, IsInt n) (hl : v.length = w.length) (h : vecText v = vecText w) : v = w := by
  by_cases hne : v = []
  · subst hne; exact (List.length_eq_zero_iff.1 hl.symm).symm
  have hne' : w ≠ [] := by rintro rfl; exact hne (List.length_eq_zero_iff.1 hl)
  have a := C102_read hv hne (r := []) (by simp) 0 (old := v) rfl
  have b := C102_read hw hne' (r := []) (by simp) 0 (old := v) hl
  rw [h, b] at a
  exact (congrArg Prod.snd a).symm

/-- **C102.** A vector of fewer components is not taken for one of more: reading its text sets the flag of a failure. -/
theorem C102_short {v : List ℤ} (hv : ∀ n ∈ v, IsInt n) (hne : v ≠ []) (sep : Byte) {old : List ℤ} (ho : v.length < old.length) : (readVec ⟨vecText v, false, false⟩ sep old).1.fail = true := by
  have tail : ∀ (l1 l2 : List ℤ) (s : InStream) (sep : Byte), ∃ sep', (readTail s sep (l1 ++ l2)).1 = (readTail (readTail s sep l1).1 sep' l2).1 := by
    intro l1
    induction l1 with
    | nil => intro l2 s sep; exact ⟨sep, rfl⟩
    | cons o l1 ih =>
      intro l2 s sep
      obtain ⟨sep', h⟩ := ih l2 (if (readByte s sep).2 = 44 then (readInt (readByte s sep).1 o).1 else { (readInt (readByte s sep).1 o).1 with fail := true }) (readByte s sep).2
      exact ⟨sep', h⟩
  have hr := C102_read hv hne (r := []) (by simp) sep (old := old.take v.length) (by simp; omega)
  rw [List.append_nil] at hr
  obtain _ | ⟨o, old⟩ := old
  · simp at ho
  obtain ⟨n, v', rfl⟩ := List.exists_cons_of_ne_nil hne
  simp only [List.length_cons, List.take_succ_cons, readVec, List.isEmpty_nil] at hr ho ⊢
  obtain ⟨sep', h⟩ := tail (old.take v'.length) (old.drop v'.length) (readInt ⟨vecText (n :: v'), false, false⟩ o).1 sep
  rw [List.take_append_drop] at h
  rw [h, (Prod.mk.inj hr).1]
  by_contra hc
  have hc' := Bool.eq_false_iff.2 hc
  cases hd : old.drop v'.length with
  | nil =>
    have := congrArg List.length hd
    simp at this
    omega
  | cons a l =>
    rw [hd, readTail] at hc'
    simp only [readByte, Bool.true_or, if_true, readInt, Bool.or_true] at hc'
    have := readTail_fail _ _ _ hc'
    split at this <;> simp at this

/-- **C102.** The comparison of two vectors of integers is equality. -/
theorem C102_equal {v w : List ℤ} (hl : v.length = w.length) : vecEq v w = true ↔ v = w := by
  induction v generalizing w with
  | nil => cases w <;> simp_all [vecEq]
  | cons a v ih =>
    cases w with
    | nil => simp at hl
    | cons b w =>
      rw [vecEq]
      by_cases h : a = b
      · subst h
        simpa using ih (by simpa using hl)
      · simp [h]

/-- **C102.** Two vectors of real numbers compare as equal if all components differ by less than the tolerance. -/
theorem C102_near {eps : ℝ} {v w : List ℝ} (hl : v.length = w.length) : vecEqReal eps v w = true ↔ ∀ p ∈ v.zip w, |p.1 - p.2| < eps := by
  induction v generalizing w with
  | nil => simp [vecEqReal]
  | cons a v ih =>
    cases w with
    | nil => simp at hl
    | cons b w =>
      rw [vecEqReal, List.zip_cons_cons, List.forall_mem_cons, ← ih (by simpa using hl)]
      by_cases h : |a - b| < eps <;> simp [h]

/-- **C102** fails in this form: the comparison of vectors of real numbers is not transitive, for any positive tolerance. -/
theorem C102_refuted_transitive {eps : ℝ} (h : 0 < eps) : ∃ u v w : List ℝ, u.length = 2 ∧ v.length = 2 ∧ w.length = 2 ∧
    vecEqReal eps u v = true ∧ vecEqReal eps v w = true ∧ vecEqReal eps u w = false := by
  have h1 : |0 - eps / 2| < eps := by rw [abs_lt]; constructor <;> linarith
  have h2 : |eps / 2 - eps| < eps := by rw [abs_lt]; constructor <;> linarith
  have h3 : ¬ |0 - eps| < eps := by rw [zero_sub, abs_neg, abs_of_pos h]; exact lt_irrefl _
  have h4 : |(0 : ℝ) - 0| < eps := by simpa using h
  refine ⟨[0, 0], [eps / 2, 0], [eps, 0], rfl, rfl, rfl, ?_, ?_, ?_⟩
  · simp only [vecEqReal, h1, h4, not_true_eq_false, if_false]
  · simp only [vecEqReal, h2, h4, not_true_eq_false, if_false]
  · rw [vecEqReal, if_pos h3]

/-- **C102.** What a momentum writes is read back. -/
theorem C102_momentum {k : ℤ} (hk : IsInt k) {r : List Byte} (hr : ∀ c ∈ r.head?, isDigitByte c = false) (old : ℤ) :
    readMomentum ⟨momentumText k ++ r, false, false⟩ old = (⟨r, r.isEmpty, false⟩, k) := readInt_text (intText_is k) hk hr old

/-- **C102** fails in this form: a momentum that is read need not be in the range of the momenta, from −10000 to 10000; reading does not wrap. -/
theorem C102_refuted_momentum {k : ℤ} (hk : IsInt k) (h : 10000 < |k|) (old : ℤ) : (readMomentum ⟨momentumText k, false, false⟩ old).1.fail = false ∧
    ¬ |(readMomentum ⟨momentumText k, false, false⟩ old).2| ≤ 10000 := by
  have := C102_momentum hk (r := []) (by simp) old
  rw [List.append_nil] at this
  rw [this]
  exact ⟨rfl, by simpa using h⟩

/-- The vector (−3, 12) is written as `-3,12` and read from ` -3 , +012;`, where `;` is left. -/
example : vecText [-3, 12] = [45, 51, 44, 49, 50] ∧
    (let r := readVec ⟨[32, 45, 51, 32, 44, 32, 43, 48, 49, 50, 59], false, false⟩ 7 [0, 0]; (r.1.rest, r.1.eof, r.1.fail, r.2)) = ([59], false, false, [-3, 12]) ∧
    (let r := readVec ⟨[45, 51, 59, 49], false, false⟩ 7 [0, 0]; (r.1.fail, r.2)) = (true, [-3, 1]) := by decide +kernel

end Feyn
