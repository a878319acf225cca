import Verif.Spec.PyCast
import Mathlib.Tactic.Linarith
import Mathlib.Tactic.NormNum
import Mathlib.Tactic.Order

/-!
# C82: values cross the border between C++ and Python unchanged
-/

namespace Feyn

set_option linter.unusedSectionVars false

variable {fl : Floating} {D α β : Type}

/-! ## Text and numbers -/

theorem cString_eq (s : List Byte) (h : (0 : Byte) ∉ s) : cString s = s := by
  unfold cString
  induction s with
  | nil => rfl
  | cons x s ih =>
    rw [List.mem_cons, not_or] at h
    rw [List.takeWhile_cons, if_pos (by simpa using Ne.symm h.1), ih h.2]

theorem convString_faithful : (convString : Conv D _).Faithful (fun s => (0 : Byte) ∉ s) := by
  intro s hs
  simp [convString, accept, cString_eq s hs]

theorem asInt_of {p : Py D} {n : ℤ} (h : IsInteger p n) : p.asInt = some n := by
  cases h <;> rfl

theorem cLong_in {lo hi m n : ℤ} (h : lo ≤ n ∧ n < hi) : cLong lo hi m n = (n, false) := if_pos h

theorem convInt_eq {p : Py D} {n : ℤ} (h : IsInteger p n) (old : ℤ) (hn : -2 ^ 31 ≤ n ∧ n < 2 ^ 31) : convInt.convert p old = .ok ⟨true, n, false⟩ := by
  simp only [convInt, convInteger, asInt_of h, pyAsLong]
  rw [cLong_in (by constructor <;> linarith [hn.1, hn.2])]
  simp only [Res.ok.injEq, Ans.mk.injEq, true_and, and_true]
  rw [Int.bmod_def]
  split <;> omega

theorem convUInt_eq {p : Py D} {n : ℤ} (h : IsInteger p n) (old : ℤ) (hn : 0 ≤ n ∧ n < 2 ^ 32) : convUInt.convert p old = .ok ⟨true, n, false⟩ := by
  simp only [convUInt, convInteger, asInt_of h, pyAsULong]
  rw [cLong_in (by constructor <;> linarith [hn.1, hn.2])]
  simp only [Res.ok.injEq, Ans.mk.injEq, true_and, and_true]
  omega

theorem convLong_eq {p : Py D} {n : ℤ} (h : IsInteger p n) (old : ℤ) (hn : -2 ^ 63 ≤ n ∧ n < 2 ^ 63) : convLong.convert p old = .ok ⟨true, n, false⟩ := by
  simp only [convLong, convInteger, asInt_of h, pyAsLong]
  rw [cLong_in (by constructor <;> linarith [hn.1, hn.2])]

theorem convULong_eq {p : Py D} {n : ℤ} (h : IsInteger p n) (old : ℤ) (hn : 0 ≤ n ∧ n < 2 ^ 64) : convULong.convert p old = .ok ⟨true, n, false⟩ := by
  simp only [convULong, convInteger, asInt_of h, pyAsULong]
  rw [cLong_in (by constructor <;> linarith [hn.1, hn.2])]

theorem convULLong_eq (n old : ℤ) (hn : 0 ≤ n ∧ n < 2 ^ 64) : (convULLong : Conv D ℤ).convert (.long n) old = .ok ⟨true, n, false⟩ := by
  simp only [convULLong, convInteger, Py.asInt, pyAsULong]
  rw [cLong_in (by constructor <;> linarith [hn.1, hn.2])]

/-- **C82**, integers: a Python integer in the range of the C++ type is converted to its value, whatever the variable held before; `unsigned long long` is the exception: only
objects of the Python type `long` are read correctly. -/
theorem C82_integer {c : Conv D ℤ} {lo hi : ℤ} (hc : IntegerType c lo hi) {p : Py D} {n : ℤ} (h : IsInteger p n) (hn : lo ≤ n ∧ n < hi) (old : ℤ)
    (hl : c = convULLong → ∃ m, p = .long m) : c.convert p old = .ok ⟨true, n, false⟩ := by
  cases hc with
  | int => exact convInt_eq h old hn
  | uint => exact convUInt_eq h old hn
  | long => exact convLong_eq h old hn
  | ulong => exact convULong_eq h old hn
  | llong => exact convLong_eq h old hn
  | ullong =>
    obtain ⟨m, rfl⟩ := hl rfl
    cases h
    exact convULLong_eq n old hn

theorem integer_faithful {c : Conv D ℤ} {lo hi : ℤ} (hc : IntegerType c lo hi) : c.Faithful (fun n => lo ≤ n ∧ n < hi) := by
  intro n hn
  cases hc with
  | int => exact convInt_eq (.int n) _ hn
  | uint => exact convUInt_eq (.int n) _ hn
  | long => exact convLong_eq (.long n) _ hn
  | ulong => exact convULong_eq (.long n) _ hn
  | llong => exact convLong_eq (.long n) _ hn
  | ullong => exact convULLong_eq n _ hn

/-! ## Containers -/

theorem vecLoop_faithful {c : Conv D α} {dom : α → Prop} (h : c.Faithful dom) (v : List α) (hv : ∀ x ∈ v, dom x) :
    ∀ (ys : List (Py D)) (old : List α), old.length = v.length → vecLoop c v.length (v.map c.cast ++ ys) old = .ok ⟨true, v, false⟩ := by
  induction v with
  | nil =>
    intro ys old ho
    obtain rfl : old = [] := List.length_eq_zero_iff.1 ho
    simp [vecLoop]
  | cons x v ih =>
    intro ys old ho
    cases old with
    | nil => simp at ho
    | cons o os =>
      simp only [List.length_cons, List.map_cons, List.cons_append, vecLoop]
      rw [h x (hv x (List.mem_cons_self ..))]
      simp only [Res.ok_bind, Bool.true_eq_false, if_false]
      rw [ih (fun y hy => hv y (List.mem_cons_of_mem _ hy)) ys os (by simpa using ho)]
      rfl

theorem listLoop_faithful {c : Conv D α} {dom : α → Prop} (h : c.Faithful dom) (v : List α) (hv : ∀ x ∈ v, dom x) :
    ∀ acc : List α, listLoop c (v.map c.cast) acc = .ok ⟨true, acc ++ v, false⟩ := by
  induction v with
  | nil => intro acc; simp [listLoop]
  | cons x v ih =>
    intro acc
    simp only [List.map_cons, listLoop]
    rw [h x (hv x (List.mem_cons_self ..))]
    simp only [Res.ok_bind, Bool.true_eq_false, if_false]
    rw [ih (fun y hy => hv y (List.mem_cons_of_mem _ hy)) (acc ++ [x])]
    simp

section map
variable {K V : Type} [LinearOrder K]

/-- Inserting one entry after the other. -/
theorem mapLoop_faithful {ck : Conv D K} {cv : Conv D V} {dk : K → Prop} {dv : V → Prop} (hk : ck.Faithful dk) (hv : cv.Faithful dv) (m : List (K × V))
    (hm : ∀ e ∈ m, dk e.1 ∧ dv e.2) : ∀ acc : List (K × V),
    mapLoop ck cv (m.map fun e => (ck.cast e.1, cv.cast e.2)) acc = .ok ⟨true, m.foldl (fun a e => mapInsert e.1 e.2 a) acc, false⟩ := by
  induction m with
  | nil => intro acc; simp [mapLoop]
  | cons e m ih =>
    intro acc
    have he := hm e (List.mem_cons_self ..)
    simp only [List.map_cons, mapLoop]
    rw [hk _ he.1]
    simp only [Res.ok_bind, Bool.true_eq_false, if_false]
    rw [hv _ he.2]
    simp only [Res.ok_bind, Bool.true_eq_false, if_false]
    rw [ih (fun y hy => hm y (List.mem_cons_of_mem _ hy))]
    simp

theorem mapInsert_last (k : K) (v : V) (m : List (K × V)) (h : ∀ e ∈ m, e.1 < k) : mapInsert k v m = m ++ [(k, v)] := by
  induction m with
  | nil => rfl
  | cons e m ih =>
    have := h e (List.mem_cons_self ..)
    rw [mapInsert, if_neg this.ne', if_neg (not_lt.2 this.le), ih fun y hy => h y (List.mem_cons_of_mem _ hy)]
    rfl

theorem foldl_insert_sorted (m : List (K × V)) (hm : m.Pairwise fun a b => a.1 < b.1) :
    ∀ acc : List (K × V), (∀ a ∈ acc, ∀ e ∈ m, a.1 < e.1) → m.foldl (fun a e => mapInsert e.1 e.2 a) acc = acc ++ m := by
  induction m with
  | nil => intro acc _; simp
  | cons e m ih =>
    intro acc h
    rw [List.foldl_cons, mapInsert_last _ _ _ fun a ha => h a ha e (List.mem_cons_self ..)]
    rw [List.pairwise_cons] at hm
    rw [ih hm.2]
    · simp
    · intro a ha y hy
      rcases List.mem_append.1 ha with ha | ha
      · exact h a ha y (List.mem_cons_of_mem _ hy)
      · obtain rfl := List.mem_singleton.1 ha
        exact hm.1 y hy

set_option linter.unusedSimpArgs false in
set_option linter.unusedTactic false in
theorem mapInsert_comm (k k' : K) (v v' : V) (h : k ≠ k') (m : List (K × V)) : mapInsert k v (mapInsert k' v' m) = mapInsert k' v' (mapInsert k v m) := by
  induction m with
  | nil =>
    rcases lt_or_gt_of_ne h with hl | hl
    · simp [mapInsert, h, h.symm, hl, not_lt.2 hl.le]
    · simp [mapInsert, h, h.symm, hl, not_lt.2 hl.le]
  | cons e m ih =>
    obtain ⟨a, b⟩ := e
    rcases lt_trichotomy k a with h1 | h1 | h1 <;> rcases lt_trichotomy k' a with h2 | h2 | h2 <;> rcases lt_or_gt_of_ne h with hl | hl <;>
      first
      | (subst h1; subst h2; exact absurd rfl h)
      | (subst h1; simp [mapInsert, h, h.symm, hl, not_lt.2 hl.le, h2, h2.ne, h2.ne', not_lt.2 h2.le]; done)
      | (subst h2; simp [mapInsert, h, h.symm, hl, not_lt.2 hl.le, h1, h1.ne, h1.ne', not_lt.2 h1.le]; done)
      | (simp [mapInsert, h, h.symm, hl, not_lt.2 hl.le, h1, h1.ne, h1.ne', not_lt.2 h1.le, h2, h2.ne, h2.ne', not_lt.2 h2.le, ih]; done)
      | (exfalso; order)

theorem foldl_insert_perm {m l : List (K × V)} (hm : m.Pairwise fun a b => a.1 < b.1) (hl : l.Perm m) : l.foldl (fun a e => mapInsert e.1 e.2 a) [] = m := by
  have hs := foldl_insert_sorted m hm [] (by simp)
  rw [List.nil_append] at hs
  rw [← hs]
  symm
  refine hl.symm.foldl_eq' ?_ _
  intro x hx y hy z
  by_cases hxy : x.1 = y.1
  · have : x = y := by
      by_contra hne
      have := (List.pairwise_iff_getElem.1 hm)
      obtain ⟨i, hi, rfl⟩ := List.getElem_of_mem hx
      obtain ⟨j, hj, rfl⟩ := List.getElem_of_mem hy
      rcases lt_trichotomy i j with hij | hij | hij
      · exact (this i j hi hj hij).ne hxy
      · subst hij; exact hne rfl
      · exact (this j i hj hi hij).ne hxy.symm
    rw [this]
  · exact (mapInsert_comm _ _ _ _ (Ne.symm hxy) z)

theorem dictSet_new (eq : D → D → Bool) (k v : Py D) (l : List (Py D × Py D)) (h : ∀ e ∈ l, e.1.keyEq eq k = false) : dictSet eq k v l = l ++ [(k, v)] := by
  induction l with
  | nil => rfl
  | cons e l ih =>
    rw [dictSet, if_neg (by simp [h e (List.mem_cons_self ..)]), ih fun y hy => h y (List.mem_cons_of_mem _ hy)]
    rfl

theorem mapCast_eq (eq : D → D → Bool) {ck : Conv D K} {cv : Conv D V} {dk : K → Prop} (hk : ck.Key eq dk) (m : List (K × V)) :
    ∀ a : List (K × V), (a ++ m).Pairwise (fun a b => a.1 < b.1) → (∀ e ∈ a ++ m, dk e.1) →
      mapCast eq ck cv m (a.map fun e => (ck.cast e.1, cv.cast e.2)) = (a ++ m).map fun e => (ck.cast e.1, cv.cast e.2) := by
  induction m with
  | nil => intro a _ _; simp [mapCast]
  | cons e m ih =>
    intro a hp hd
    have hde := hd e (by simp)
    rw [mapCast, if_pos (hk _ hde).1, dictSet_new]
    · have := ih (a ++ [e]) (by simpa using hp) (by simpa using hd)
      simpa using this
    · intro x hx
      obtain ⟨y, hy, rfl⟩ := List.mem_map.1 hx
      have hlt : y.1 < e.1 := by
        rw [List.pairwise_append] at hp
        exact hp.2.2 y hy e (List.mem_cons_self ..)
      rw [← Bool.not_eq_true]
      intro hh
      exact hlt.ne (((hk _ (hd y (by simp [hy]))).2 _ hde).1 hh)

theorem mapCast_nil (eq : D → D → Bool) {ck : Conv D K} {cv : Conv D V} {dk : K → Prop} (hk : ck.Key eq dk) (m : List (K × V)) (hp : m.Pairwise (fun a b => a.1 < b.1))
    (hd : ∀ e ∈ m, dk e.1) : mapCast eq ck cv m [] = m.map fun e => (ck.cast e.1, cv.cast e.2) :=
  mapCast_eq eq hk m [] hp hd

end map

/-- **C82**, round trip: a value of any supported type, to any depth of containers, comes back from Python as it was, and no exception is pending. For `float` the
machine numbers must be such that a `float` survives as a `double`. -/
theorem C82_round_trip (hn : ∀ x, fl.narrow (fl.widen x) = x) {c : Conv fl.D α} {dom : α → Prop} (h : Supported fl c dom) : c.Faithful dom := by
  induction h with
  | string => exact convString_faithful
  | bool => intro b _; rfl
  | integer hc => exact integer_faithful hc
  | momentum => exact integer_faithful .int
  | double => intro x _; rfl
  | float =>
    intro x _
    simp [convFloat, Py.asDouble, hn]
  | complex => intro x _; rfl
  | any => intro x _; rfl
  | @vec _ c dom n _ ih =>
    rintro v ⟨rfl, hv⟩
    simp only [convVec, List.length_map, lt_irrefl, if_false]
    have := vecLoop_faithful ih v hv [] (List.replicate v.length c.init) (by simp)
    rwa [List.append_nil] at this
  | list _ ih =>
    intro v hv
    exact listLoop_faithful ih v hv []
  | map _ hkey _ ihk ihv =>
    rintro m ⟨hp, hm⟩
    simp only [convMap]
    rw [mapCast_nil _ hkey m hp fun e he => (hm e he).1, mapLoop_faithful ihk ihv m hm, foldl_insert_sorted m hp [] (by simp)]
    rfl

/-- **C82**, order of the items: a map comes back from a `dict` in whatever order Python gives the items. -/
theorem C82_map_order {K V : Type} [LinearOrder K] (hn : ∀ x, fl.narrow (fl.widen x) = x) {ck : Conv fl.D K} {cv : Conv fl.D V} {dk : K → Prop} {dv : V → Prop}
    (hk : Supported fl ck dk) (hkey : ck.Key fl.eq dk) (hv : Supported fl cv dv) (m : List (K × V)) (hp : m.Pairwise fun a b => a.1 < b.1) (hm : ∀ e ∈ m, dk e.1 ∧ dv e.2)
    (items shuffled : List (Py fl.D × Py fl.D)) (hi : (convMap fl.eq ck cv).cast m = .dict items) (hs : shuffled.Perm items) :
    (convMap fl.eq ck cv).convert (.dict shuffled) [] = .ok ⟨true, m, false⟩ := by
  simp only [convMap, Py.dict.injEq] at hi ⊢
  rw [mapCast_nil _ hkey m hp fun e he => (hm e he).1] at hi
  subst hi
  obtain ⟨l, hl, rfl⟩ : ∃ l : List (K × V), l.Perm m ∧ shuffled = l.map fun e => (ck.cast e.1, cv.cast e.2) := by
    have : ∀ {a b : List (Py fl.D × Py fl.D)}, a.Perm b → ∀ m : List (K × V), b = m.map (fun e => (ck.cast e.1, cv.cast e.2)) →
        ∃ l : List (K × V), l.Perm m ∧ a = l.map fun e => (ck.cast e.1, cv.cast e.2) := by
      intro a b hab
      induction hab with
      | nil => intro m hm; exact ⟨m, .refl _, hm⟩
      | cons x _ ih =>
        intro m hm
        cases m with
        | nil => simp at hm
        | cons y m =>
          rw [List.map_cons, List.cons.injEq] at hm
          obtain ⟨l, hl, he⟩ := ih m hm.2
          exact ⟨y :: l, hl.cons y, by rw [List.map_cons, ← he, hm.1]⟩
      | swap x y l =>
        intro m hm
        match m, hm with
        | y' :: x' :: m, hm =>
          simp only [List.map_cons, List.cons.injEq] at hm
          exact ⟨x' :: y' :: m, .swap _ _ _, by simp only [List.map_cons, hm.1, hm.2.1, hm.2.2]⟩
      | trans _ _ ih1 ih2 =>
        intro m hm
        obtain ⟨l, hl, he⟩ := ih2 m hm
        obtain ⟨l', hl', he'⟩ := ih1 l he
        exact ⟨l', hl'.trans hl, he'⟩
    exact this hs m rfl
  have hm' : ∀ e ∈ l, dk e.1 ∧ dv e.2 := fun e he => hm e (hl.subset he)
  rw [mapLoop_faithful (C82_round_trip hn hk) (C82_round_trip hn hv) l hm', foldl_insert_perm hp hl]

/-! ## What is refused -/

theorem integer_kinds {c : Conv D ℤ} {lo hi : ℤ} (hc : IntegerType c lo hi) (p : Py D) : ((∃ n, IsInteger p n) → c.Accepts p) ∧ ((¬∃ n, IsInteger p n) → c.Refuses p) := by
  have key : ∀ (mk : ℤ → Py D) f, ((∃ n, IsInteger p n) → (convInteger mk f).Accepts p) ∧ ((¬∃ n, IsInteger p n) → (convInteger mk f).Refuses p) := by
    intro mk f
    constructor
    · rintro ⟨n, hn⟩ old
      exact ⟨(f p n).1, (f p n).2, by simp only [convInteger, asInt_of hn]⟩
    · intro h old
      cases p with
      | int n => exact absurd ⟨n, .int n⟩ h
      | long n => exact absurd ⟨n, .long n⟩ h
      | bool b => cases b with
        | true => exact absurd ⟨1, .true⟩ h
        | false => exact absurd ⟨0, .false⟩ h
      | _ => exact ⟨false, rfl⟩
  cases hc <;> exact key _ _

theorem asDouble_int {p : Py fl.D} {n : ℤ} (h : IsInteger p n) : ∃ x e, p.asDouble fl = some (x, e) := by
  cases h <;> simp only [Py.asDouble, Py.asInt] <;> split <;> exact ⟨_, _, rfl⟩

theorem asDouble_none {p : Py fl.D} (h : ¬((∃ x, p = .float x) ∨ ∃ n, IsInteger p n)) : p.asDouble fl = none := by
  cases p with
  | int n => exact absurd (.inr ⟨n, .int n⟩) h
  | long n => exact absurd (.inr ⟨n, .long n⟩) h
  | bool b => cases b with
    | true => exact absurd (.inr ⟨1, .true⟩) h
    | false => exact absurd (.inr ⟨0, .false⟩) h
  | float x => exact absurd (.inl ⟨x, rfl⟩) h
  | _ => rfl

/-- **C82**, kinds: text is read from `str` and from `unicode` that can be encoded, `bool` from the two truth values only, integers from integers (truth values
included), reals from floats and integers, complex numbers from `complex` only, lists from lists, maps from dictionaries; everything else is refused and the variable keeps its
value. -/
theorem C82_kinds (p : Py fl.D) :
    ((∃ s, p = .str s ∨ p = .unicode (some s)) → convString.Accepts p) ∧ ((¬∃ s, p = .str s ∨ p = .unicode (some s)) → convString.Refuses p) ∧
    ((∃ b, p = .bool b) → convBool.Accepts p) ∧ ((¬∃ b, p = .bool b) → convBool.Refuses p) ∧
    (∀ c lo hi, IntegerType c lo hi → ((∃ n, IsInteger p n) → c.Accepts p) ∧ ((¬∃ n, IsInteger p n) → c.Refuses p)) ∧
    (((∃ x, p = .float x) ∨ ∃ n, IsInteger p n) → (convDouble fl).Accepts p ∧ (convFloat fl).Accepts p) ∧
    ((¬((∃ x, p = .float x) ∨ ∃ n, IsInteger p n)) → (convDouble fl).Refuses p ∧ (convFloat fl).Refuses p) ∧
    ((∃ x y, p = .complex x y) → (convComplex fl).Accepts p) ∧ ((¬∃ x y, p = .complex x y) → (convComplex fl).Refuses p) ∧
    (∀ (α : Type) (c : Conv fl.D α), (¬∃ l, p = .list l) → (convList c).Refuses p ∧ ∀ n, (convVec n c).Refuses p) ∧
    (∀ (K V : Type) [LinearOrder K] (ck : Conv fl.D K) (cv : Conv fl.D V), (¬∃ l, p = .dict l) → (convMap fl.eq ck cv).Refuses p) := by
  refine ⟨?_, ?_, ?_, ?_, fun c lo hi hc => integer_kinds hc p, ?_, ?_, ?_, ?_, ?_, ?_⟩
  · rintro ⟨s, rfl | rfl⟩ old
    · exact ⟨_, _, rfl⟩
    · exact ⟨_, _, rfl⟩
  · intro h old
    cases p with
    | str s => exact absurd ⟨s, .inl rfl⟩ h
    | unicode s => cases s with
      | none => exact ⟨_, rfl⟩
      | some s => exact absurd ⟨s, .inr rfl⟩ h
    | _ => exact ⟨_, rfl⟩
  · rintro ⟨b, rfl⟩ old
    exact ⟨_, _, rfl⟩
  · intro h old
    cases p with
    | bool b => exact absurd ⟨b, rfl⟩ h
    | _ => exact ⟨_, rfl⟩
  · rintro (⟨x, rfl⟩ | ⟨n, hn⟩)
    · exact ⟨fun old => ⟨_, _, rfl⟩, fun old => ⟨_, _, rfl⟩⟩
    · obtain ⟨x, e, hx⟩ := asDouble_int (fl := fl) hn
      exact ⟨fun old => ⟨x, e, by simp only [convDouble, hx]⟩, fun old => ⟨fl.narrow x, e, by simp only [convFloat, hx]⟩⟩
  · intro h
    have hx := asDouble_none (fl := fl) h
    exact ⟨fun old => ⟨false, by simp only [convDouble, hx, refuse]⟩, fun old => ⟨false, by simp only [convFloat, hx, refuse]⟩⟩
  · rintro ⟨x, y, rfl⟩ old
    exact ⟨_, _, rfl⟩
  · intro h old
    cases p with
    | complex x y => exact absurd ⟨x, y, rfl⟩ h
    | _ => exact ⟨_, rfl⟩
  · intro α c h
    cases p with
    | list l => exact absurd ⟨l, rfl⟩ h
    | _ => exact ⟨fun old => ⟨_, rfl⟩, fun n old => ⟨_, rfl⟩⟩
  · intro K V _ ck cv h old
    cases p with
    | dict l => exact absurd ⟨l, rfl⟩ h
    | _ => exact ⟨_, rfl⟩

/-- **C82**, lists: a list is converted if and only if each of its items is, and then to the values of the items in their order. -/
theorem C82_list (c : Conv D α) (xs : List (Py D)) (v : List α) :
    (∃ e, (convList c).convert (.list xs) [] = .ok ⟨true, v, e⟩) ↔ List.Forall₂ (fun x y => ∃ e, c.convert x c.init = .ok ⟨true, y, e⟩) xs v := by
  have key : ∀ (xs : List (Py D)) (acc v : List α), (∃ e, listLoop c xs acc = .ok ⟨true, v, e⟩) ↔
      ∃ w, v = acc ++ w ∧ List.Forall₂ (fun x y => ∃ e, c.convert x c.init = .ok ⟨true, y, e⟩) xs w := by
    intro xs
    induction xs with
    | nil =>
      intro acc v
      constructor
      · rintro ⟨e, h⟩
        simp only [listLoop, Res.ok.injEq, Ans.mk.injEq, true_and] at h
        exact ⟨[], by simp [h.1], .nil⟩
      · rintro ⟨w, hv, hw⟩
        cases hw
        exact ⟨false, by simp [listLoop, hv]⟩
    | cons x xs ih =>
      intro acc v
      constructor
      · rintro ⟨e, h⟩
        rw [listLoop] at h
        rcases hc : c.convert x c.init with ⟨d, y, e'⟩ | _ | _
        · rw [hc, Res.ok_bind] at h
          cases d with
          | false => simp at h
          | true =>
            rcases hs : listLoop c xs (acc ++ [y]) with ⟨d, w, e''⟩ | _ | _
            · simp only [Bool.true_eq_false, if_false, hs, Res.ok_bind, Res.ok.injEq, Ans.mk.injEq] at h
              obtain ⟨rfl, rfl, -⟩ := h
              obtain ⟨u, hu, hf⟩ := (ih _ _).1 ⟨_, hs⟩
              exact ⟨y :: u, by simp [hu], .cons ⟨_, hc⟩ hf⟩
            · simp [hs] at h
            · simp [hs] at h
        · simp [hc] at h
        · simp [hc] at h
      · rintro ⟨w, hv, hw⟩
        cases hw with
        | @cons _ y _ u hxy hrest =>
          obtain ⟨e, he⟩ := hxy
          obtain ⟨e', hs⟩ := (ih (acc ++ [y]) v).2 ⟨u, by simp [hv], hrest⟩
          exact ⟨e || e', by simp [listLoop, he, hs]⟩
  refine (key xs [] v).trans ⟨?_, fun h => ⟨v, by simp, h⟩⟩
  rintro ⟨w, rfl, hw⟩
  simpa using hw

/-! ## Dictionaries -/

theorem Dict.find_set_same {V : Type} (d : Dict V) (k : String) (v : V) : (d.set k v).find k = some v := by
  induction d with
  | nil => simp [Dict.set, Dict.find]
  | cons e d ih =>
    obtain ⟨k', v'⟩ := e
    rw [Dict.set]
    split
    · simp [Dict.find]
    · split
      · simp [Dict.find]
      · next h _ => rw [Dict.find, if_neg h, ih]

/-- **C82**, parameters: what is stored in a `Dictionary` under a key (`para[key] = value`) is read back by `Get<T>` of the same type. -/
theorem C82_set_get (hn : ∀ x, fl.narrow (fl.widen x) = x) {c : Conv fl.D α} {dom : α → Prop} (h : Supported fl c dom) (x : α) (hx : dom x) (d : Dict (Py fl.D)) (key : String) :
    (d.set key (c.cast x)).get (fun p => match c.as p with | .ok v => some v | _ => none) key = .ok x := by
  have h1 := Dict.find_set_same d key (c.cast x)
  have h2 : c.as (c.cast x) = .ok x := by
    rw [Conv.as, C82_round_trip hn h x hx]
    rfl
  simp [Dict.get, Dict.hasKey, h1, h2]

section entries
variable {K V : Type} [LinearOrder K]

theorem mapInsert_mem (k : K) (v : V) (m : List (K × V)) : ∀ e ∈ mapInsert k v m, e = (k, v) ∨ e ∈ m := by
  induction m with
  | nil => intro e he; exact .inl (by simpa [mapInsert] using he)
  | cons a m ih =>
    intro e he
    rw [mapInsert] at he
    split at he
    · exact .inr he
    · split at he
      · rcases List.mem_cons.1 he with h | h
        · exact .inl h
        · exact .inr h
      · rcases List.mem_cons.1 he with h | h
        · exact .inr (h ▸ List.mem_cons_self ..)
        · rcases ih e h with h | h
          · exact .inl h
          · exact .inr (List.mem_cons_of_mem _ h)

theorem mapInsert_sorted (k : K) (v : V) (m : List (K × V)) (hm : m.Pairwise fun a b => a.1 < b.1) : (mapInsert k v m).Pairwise fun a b => a.1 < b.1 := by
  induction m with
  | nil => simp [mapInsert]
  | cons a m ih =>
    rw [List.pairwise_cons] at hm
    rw [mapInsert]
    split
    · exact List.pairwise_cons.2 hm
    · next hne =>
      split
      · next hlt =>
        refine List.pairwise_cons.2 ⟨fun e he => ?_, List.pairwise_cons.2 hm⟩
        rcases List.mem_cons.1 he with h | h
        · rw [h]; exact hlt
        · exact hlt.trans (hm.1 e h)
      · next hnlt =>
        refine List.pairwise_cons.2 ⟨fun e he => ?_, ih hm.2⟩
        rcases mapInsert_mem k v m e he with h | h
        · rw [h]; exact lt_of_le_of_ne (not_lt.1 hnlt) (Ne.symm hne)
        · exact hm.1 e h

theorem entry_cons (k : K) (e : K × V) (m : List (K × V)) : entry k (e :: m) = if e.1 = k then some e.2 else entry k m := by
  unfold entry
  rw [List.find?_cons]
  by_cases h : e.1 = k <;> simp [h]

theorem entry_none (k : K) (m : List (K × V)) (h : ∀ e ∈ m, e.1 ≠ k) : entry k m = none := by
  induction m with
  | nil => rfl
  | cons e m ih => rw [entry_cons, if_neg (h e (List.mem_cons_self ..)), ih fun y hy => h y (List.mem_cons_of_mem _ hy)]

theorem entry_insert (k k' : K) (v : V) (m : List (K × V)) (hm : m.Pairwise fun a b => a.1 < b.1) :
    entry k (mapInsert k' v m) = (entry k m).or (if k' = k then some v else none) := by
  induction m with
  | nil => rw [mapInsert, entry_cons]; rfl
  | cons a m ih =>
    have hm' := List.pairwise_cons.1 hm
    obtain ⟨a1, a2⟩ := a
    rw [mapInsert]
    by_cases h1 : k' = a1
    · subst h1
      rw [if_pos rfl, entry_cons]
      by_cases h2 : k' = k
      · simp [h2]
      · simp [h2]
    · rw [if_neg h1]
      by_cases h2 : k' < a1
      · rw [if_pos h2, entry_cons (m := (a1, a2) :: m)]
        by_cases h3 : k' = k
        · subst h3
          rw [entry_none k' ((a1, a2) :: m)]
          · simp
          · intro e he
            rcases List.mem_cons.1 he with h | h
            · rw [h]; exact h2.ne'
            · exact (h2.trans (hm'.1 e h)).ne'
        · simp [h3]
      · rw [if_neg h2, entry_cons, entry_cons, ih hm'.2]
        by_cases h3 : a1 = k <;> simp [h3]

theorem foldl_insert_entry (l : List (K × V)) : ∀ m : List (K × V), m.Pairwise (fun a b => a.1 < b.1) →
    (l.foldl (fun a e => mapInsert e.1 e.2 a) m).Pairwise (fun a b => a.1 < b.1) ∧
      ∀ k, entry k (l.foldl (fun a e => mapInsert e.1 e.2 a) m) = (entry k m).or (entry k l) := by
  induction l with
  | nil => intro m hm; exact ⟨hm, fun k => by simp [entry]⟩
  | cons e l ih =>
    intro m hm
    obtain ⟨h1, h2⟩ := ih (mapInsert e.1 e.2 m) (mapInsert_sorted _ _ m hm)
    refine ⟨h1, fun k => ?_⟩
    rw [List.foldl_cons, h2, entry_insert k _ _ m hm, entry_cons, Option.or_assoc]
    split <;> simp

end entries

/-- **C82**, loading: `Dictionary::FromPy` of a `dict` with text keys takes up every entry under a key that the dictionary does not have. A key that it has already keeps its
old value (`C82_refuted_load`); so an empty dictionary becomes the `dict`. -/
theorem C82_load_partial (eq : D → D → Bool) (m l : List (List Byte × Py D)) (hm : m.Pairwise fun a b => a.1 < b.1) (hl : ∀ e ∈ l, (0 : Byte) ∉ e.1) :
    ∃ m', (convDictionary eq).convert (.dict (l.map fun e => (.str e.1, e.2))) m = .ok ⟨true, m', false⟩ ∧ m'.Pairwise (fun a b => a.1 < b.1) ∧
      ∀ k, entry k m' = (entry k m).or (entry k l) := by
  have h := mapLoop_faithful (ck := (convString : Conv D _)) (cv := convAny) (dk := fun s => (0 : Byte) ∉ s) (dv := fun _ => True) convString_faithful
    (fun x _ => rfl) l (fun e he => ⟨hl e he, trivial⟩) m
  have hmap : (l.map fun e => ((.str e.1 : Py D), e.2)) = l.map fun e => (convString.cast e.1, convAny.cast e.2) := by
    refine List.map_congr_left fun e he => ?_
    simp only [convString, convAny, cString_eq e.1 (hl e he)]
  refine ⟨_, ?_, foldl_insert_entry l m hm⟩
  rw [hmap]
  exact h

/-! ## Keys -/

/-- Text without zero bytes, truth values and integers are keys. -/
theorem C82_keys (eq : D → D → Bool) :
    (convString : Conv D _).Key eq (fun s => (0 : Byte) ∉ s) ∧ (convBool : Conv D _).Key eq (fun _ => True) ∧
      ∀ (c : Conv D ℤ) lo hi, IntegerType c lo hi → c.Key eq (fun n => lo ≤ n ∧ n < hi) := by
  refine ⟨fun s hs => ⟨rfl, fun t ht => ?_⟩, fun b _ => ⟨rfl, fun b' _ => ?_⟩, fun c lo hi hc n hn => ?_⟩
  · simp [convString, Py.keyEq, cString_eq s hs, cString_eq t ht]
  · cases b <;> cases b' <;> simp [convBool, Py.keyEq, Py.asInt]
  · cases hc <;> exact ⟨rfl, fun m _ => by simp [convInt, convUInt, convLong, convULong, convLLong, convULLong, convInteger, Py.keyEq, Py.asInt]⟩

/-! ## Where the border leaks -/

/-- C82 fails for text with a zero byte: it comes back cut. -/
theorem C82_refuted_nul : ∃ s : List Byte, ∃ t, (convString : Conv D _).convert (convString.cast s) [] = .ok ⟨true, t, false⟩ ∧ t ≠ s :=
  ⟨[97, 0, 98], [97], rfl, by decide⟩

/-- C82 fails for integers out of range: none of the conversions refuses them. For `int` and `unsigned int` not even an exception is pending. -/
theorem C82_refuted_range :
    (∀ (c : Conv D ℤ) lo hi, IntegerType c lo hi → ∀ n, ¬(lo ≤ n ∧ n < hi) → ∀ old, ∃ x e, c.convert (.long n) old = .ok ⟨true, x, e⟩ ∧ x ≠ n) ∧
    (convInt : Conv D ℤ).convert (.int (2 ^ 32 + 5)) 0 = .ok ⟨true, 5, false⟩ ∧ (convUInt : Conv D ℤ).convert (.int (2 ^ 32 + 5)) 0 = .ok ⟨true, 5, false⟩ ∧
    (convUInt : Conv D ℤ).convert (.int (-1)) 0 = .ok ⟨true, 2 ^ 32 - 1, true⟩ := by
  refine ⟨?_, by simp [convInt, convInteger, Py.asInt, pyAsLong, cLong, Int.bmod_def], by simp [convUInt, convInteger, Py.asInt, pyAsULong, cLong],
    by simp [convUInt, convInteger, Py.asInt, pyAsULong, cLong]⟩
  intro c lo hi hc n hn old
  cases hc
  · refine ⟨_, _, rfl, fun h => hn ?_⟩
    rw [← h]
    have h1 := Int.le_bmod (x := (pyAsLong n).1) (m := 4294967296) (by norm_num)
    have h2 := Int.bmod_lt (x := (pyAsLong n).1) (m := 4294967296) (by norm_num)
    constructor
    · norm_num at h1 ⊢; omega
    · norm_num at h2 ⊢; omega
  · refine ⟨_, _, rfl, fun h => hn ?_⟩
    rw [← h]
    constructor
    · exact Int.emod_nonneg _ (by norm_num)
    · have := Int.emod_lt_of_pos (pyAsULong n).1 (b := 4294967296) (by norm_num)
      norm_num; omega
  all_goals
    refine ⟨_, _, rfl, fun h => hn ?_⟩
    simp only [pyAsLong, pyAsULong, cLong] at h
    split at h
    · next h' => exact ⟨by linarith [h'.1], by linarith [h'.2]⟩
    · simp only at h
      rw [← h]
      norm_num

/-- C82 fails for `unsigned long long`: a plain Python integer becomes `2 ^ 64 - 1`. -/
theorem C82_refuted_ullong (n old : ℤ) : (convULLong : Conv D ℤ).convert (.int n) old = .ok ⟨true, 2 ^ 64 - 1, true⟩ := by
  norm_num [convULLong, convInteger, Py.asInt]

/-- C82 fails for `spin`: the conversion from Python does not come to an end. -/
theorem C82_refuted_spin (s old : Bool) : (convSpin : Conv D Bool).convert (convSpin.cast s) old = .ub := rfl

/-- C82 fails for variables that hold something: a list is appended to what is there. -/
theorem C82_refuted_append (c : Conv D α) {dom : α → Prop} (h : c.Faithful dom) (v old : List α) (hv : ∀ x ∈ v, dom x) :
    (convList c).convert ((convList c).cast v) old = .ok ⟨true, old ++ v, false⟩ := listLoop_faithful h v hv old

/-- C82 fails for `Dictionary::Load` into a dictionary with entries: the old value of a key stays. -/
theorem C82_refuted_load (eq : D → D → Bool) (p q : Py D) (k : List Byte) (hk : (0 : Byte) ∉ k) :
    (convDictionary eq).convert (.dict [(.str k, q)]) [(k, p)] = .ok ⟨true, [(k, p)], false⟩ := by
  simp [convDictionary, convMap, mapLoop, convString, convAny, accept, cString_eq k hk, mapInsert]

/-- C82 fails for tuples: a tuple with an item that cannot be converted is accepted as long as the last item can; the element keeps what it held. -/
theorem C82_refuted_tuple (c : Conv D α) (d : Conv D β) (p q : Py D) (hp : c.Refuses p) (a : α) (b x : β) (e : Bool) (hq : d.convert q b = .ok ⟨true, x, e⟩) :
    ∃ e', ((TupleConv.one c).snoc d).convert (.tuple [p, q]) (a, b) = .ok ⟨true, (a, x), e'⟩ := by
  obtain ⟨e1, h1⟩ := hp a
  exact ⟨e1 || e, by simp [TupleConv.convert, TupleConv.snoc, TupleConv.one, h1, hq]⟩

/-- C82 fails for maps with keys that Python cannot hash: the entries are lost, without message. -/
theorem C82_refuted_key {V : Type} (eq : D → D → Bool) (c : Conv D α) [LinearOrder (List α)] (cv : Conv D V) (m : List (List α × V)) :
    ∃ l, (convMap eq (convList c) cv).cast m = .dict l ∧ l = [] := by
  refine ⟨_, rfl, ?_⟩
  induction m with
  | nil => rfl
  | cons e m ih => simpa [mapCast, convList, Py.hashable] using ih

/-- **C82**, tuples: if all items of a tuple are converted, the elements have their values. Missing: a failure of an item before the last one is not reported
(`C82_refuted_tuple`). -/
theorem C82_tuple_partial (t : TupleConv D α) (d : Conv D β) (xs : List (Py D)) (q : Py D) (hx : xs.length = t.size) (a a' : α) (b x : β) (e e' : Bool)
    (ht : ∀ ys, t.run (xs ++ ys) a = .ok ⟨true, a', e⟩) (hq : d.convert q b = .ok ⟨true, x, e'⟩) :
    (∀ ys, (t.snoc d).run (xs ++ [q] ++ ys) (a, b) = .ok ⟨true, (a', x), e || e'⟩) ∧
      (t.snoc d).convert (.tuple (xs ++ [q])) (a, b) = .ok ⟨true, (a', x), e || e'⟩ := by
  have key : ∀ ys, (t.snoc d).run (xs ++ [q] ++ ys) (a, b) = .ok ⟨true, (a', x), e || e'⟩ := by
    intro ys
    have hidx : (xs ++ [q] ++ ys)[t.size]? = some q := by
      rw [← hx]; simp
    simp only [TupleConv.snoc]
    rw [List.append_assoc, ht, Res.ok_bind, ← List.append_assoc, hidx]
    simp [hq]
  refine ⟨key, ?_⟩
  have := key []
  rw [List.append_nil] at this
  simpa [TupleConv.convert, TupleConv.snoc, hx] using this

/-- **C82**, tuples: a tuple of another length is refused. -/
theorem C82_tuple_length (t : TupleConv D α) (xs : List (Py D)) (old : α) (h : xs.length ≠ t.size) : t.convert (.tuple xs) old = .ok ⟨false, old, false⟩ := by
  simp [TupleConv.convert, h, refuse]

/-- **C82**, `AnyObject::As`: a value that is refused ends the program, one that is accepted is the result. -/
theorem C82_as (c : Conv D α) (p : Py D) : (c.Refuses p → c.as p = .abort) ∧ ∀ x e, c.convert p c.init = .ok ⟨true, x, e⟩ → c.as p = .ok x := by
  refine ⟨fun h => ?_, fun x e h => ?_⟩
  · obtain ⟨e, he⟩ := h c.init
    simp [Conv.as, he, Res.bind]
  · simp [Conv.as, h, Res.bind]

/-- **C82**, integers read as `double`: one that is too large is taken as `-1` and leaves a Python exception pending. -/
theorem C82_refuted_large (n : ℤ) (hn : fl.ofInt n = none) {p : Py fl.D} (hp : IsInteger p n) (old : fl.D) :
    (convDouble fl).convert p old = .ok ⟨true, fl.minusOne, true⟩ := by
  cases hp <;> simp [convDouble, Py.asDouble, Py.asInt, hn]

/-- **C82**, maps: a dictionary with an item whose key or value is refused is refused; the items before it stay in the variable. -/
theorem C82_map_refused {K V : Type} [LinearOrder K] (eq : D → D → Bool) (ck : Conv D K) (cv : Conv D V) (pk pv : Py D) (l : List (Py D × Py D)) (old : List (K × V))
    (h : ck.Refuses pk ∨ (ck.Accepts pk ∧ cv.Refuses pv)) : ∃ e, (convMap eq ck cv).convert (.dict ((pk, pv) :: l)) old = .ok ⟨false, old, e⟩ := by
  rcases h with h | ⟨h, h'⟩
  · obtain ⟨e, he⟩ := h ck.init
    exact ⟨e, by simp [convMap, mapLoop, he]⟩
  · obtain ⟨x, e, he⟩ := h ck.init
    obtain ⟨e', he'⟩ := h' cv.init
    exact ⟨e || e', by simp [convMap, mapLoop, he, he']⟩

/-- C82 fails for maps with keys that are maps: the entries are lost as with lists. -/
theorem C82_refuted_key_map {K V W : Type} [LinearOrder K] (eq : D → D → Bool) (ck : Conv D K) (cv : Conv D V) [LinearOrder (List (K × V))] (cw : Conv D W)
    (m : List (List (K × V) × W)) : ∃ l, (convMap eq (convMap eq ck cv) cw).cast m = .dict l ∧ l = [] := by
  refine ⟨_, rfl, ?_⟩
  induction m with
  | nil => rfl
  | cons e m ih => simpa [mapCast, convMap, Py.hashable] using ih

/-- C82 fails for keys with zero bytes: two entries become one, which has the later value. -/
theorem C82_refuted_merge (eq : D → D → Bool) {V : Type} (cv : Conv D V) (v w : V) :
    (convMap eq convString cv).cast [([97], v), ([97, 0, 98], w)] = .dict [(.str [97], cv.cast w)] := by
  simp [convMap, mapCast, convString, cString, Py.hashable, dictSet, Py.keyEq]

/-! ## Cases -/

/-- Machine numbers for the cases: rationals. -/
def ratFloating : Floating where
  D := ℚ
  S := ℚ
  widen := id
  narrow := id
  ofInt n := some n
  minusOne := -1
  eq x y := x = y

/-- C82 on a case: a dictionary of lists of pairs of numbers. -/
example : (convMap ratFloating.eq convString (convList (convVec 2 (convDouble ratFloating)))).convert
    ((convMap ratFloating.eq convString (convList (convVec 2 (convDouble ratFloating)))).cast [([97], [[(1 : ℚ), (2 : ℚ)], [(3 : ℚ), (4 : ℚ)]]), ([98], [])]) [] =
      .ok ⟨true, [([97], [[(1 : ℚ), (2 : ℚ)], [(3 : ℚ), (4 : ℚ)]]), ([98], [])], false⟩ :=
  C82_round_trip (fl := ratFloating) (fun _ => rfl) (.map .string (C82_keys _).1 (.list (.vec 2 .double))) _ (by decide)

/-- The hypotheses of `C82_refuted_tuple` can be met: the tuple `("a", 7)` read as two integers. -/
example : ∃ e', ((TupleConv.one (convInt : Conv ℚ ℤ)).snoc convInt).convert (.tuple [.str [97], .int 7]) (42, 0) = .ok ⟨true, (42, 7), e'⟩ :=
  C82_refuted_tuple _ _ _ _ (fun _ => ⟨false, rfl⟩) 42 0 7 false rfl

/-- The hypotheses of `C82_map_refused` can be met: text as value of an integer. -/
example : ∃ e, (convMap (fun x y : ℚ => x == y) convString convInt).convert (.dict [(.str [97], .str [98])]) [] = .ok ⟨false, [], e⟩ :=
  C82_map_refused _ _ _ _ _ _ _ (.inr ⟨fun _ => ⟨_, _, rfl⟩, fun _ => ⟨_, rfl⟩⟩)

/-- C82 on a case: `3` read into an `int`. -/
example : (convInt : Conv ℚ ℤ).convert (.int 3) 99 = .ok ⟨true, 3, false⟩ := C82_integer .int (.int 3) (by norm_num) 99 (by
  intro h
  have := congrArg (fun c : Conv ℚ ℤ => c.cast 0) h
  simp [convInt, convULLong, convInteger] at this)

end Feyn
