import Verif.Spec.PyRef
import Mathlib.Tactic.Ring

/-!
# C83: a Python object lives exactly as long as somebody owns a reference to it
-/

namespace Feyn

namespace Refs

/-! ## The effect of each call -/

theorem Owned.pos {s : Refs} (h : s.Owned) {i o : ℕ} (hi : s.slots[i]? = some (some o)) : 0 < s.cnt o := by
  have : some o ∈ s.slots := List.mem_of_getElem? hi
  have := List.count_pos_iff.2 this
  rw [h o]
  omega

theorem Owned.raw_pos {s : Refs} (h : s.Owned) {o : ℕ} (hi : o ∈ s.raw) : 0 < s.cnt o := by
  have := List.count_pos_iff.2 hi
  rw [h o]
  omega

theorem Owned.py_pos {s : Refs} (h : s.Owned) {o : ℕ} (hi : 0 < s.py o) : 0 < s.cnt o := by
  rw [h o]
  omega

theorem ptr_eq {s : Refs} {i : ℕ} {p : Option ℕ} (hi : s.slots[i]? = some p) : s.ptr i = .ok p := by
  rw [ptr, hi]

theorem inc_some {s : Refs} {o : ℕ} (h : 0 < s.cnt o) : s.inc (some o) = .ok { s with cnt := Function.update s.cnt o (s.cnt o + 1) } := by
  rw [inc, if_neg (by omega)]

theorem dec_some {s : Refs} {o : ℕ} (h : 0 < s.cnt o) : s.dec (some o) = .ok { s with cnt := Function.update s.cnt o (s.cnt o - 1) } := by
  rw [dec, if_neg (by omega)]

theorem Owned.ext {s t : Refs} (hs : s.Owned) (ht : t.Owned) (h1 : s.slots = t.slots) (h2 : s.raw = t.raw) (h3 : s.py = t.py) : s = t := by
  obtain ⟨c, a, b, d⟩ := s
  obtain ⟨c', a', b', d'⟩ := t
  simp only at h1 h2 h3
  subst h1 h2 h3
  congr 1
  funext o
  exact (hs o).trans (ht o).symm

theorem ctor_eff {s : Refs} (h : s.Owned) : ∃ s', s.ctor = .ok s' ∧ s'.Owned ∧ s'.slots = none :: s.slots ∧ s'.raw = s.raw ∧ s'.py = s.py :=
  ⟨_, rfl, fun o => by simpa [push] using h o, rfl, rfl, rfl⟩

theorem fromNew_eff {s : Refs} (h : s.Owned) {o : ℕ} (ho : o ∈ s.raw) :
    ∃ s', s.fromNew (some o) = .ok s' ∧ s'.Owned ∧ s'.slots = some o :: s.slots ∧ s'.raw = s.raw.erase o ∧ s'.py = s.py := by
  refine ⟨_, rfl, fun x => ?_, rfl, rfl, rfl⟩
  have := h x
  simp only [List.count_cons, List.count_erase]
  by_cases hx : o = x
  · subst hx
    have hp := List.count_pos_iff.2 ho
    simp
    omega
  · simp [hx]
    omega

theorem fromNew_null {s : Refs} (h : s.Owned) : ∃ s', s.fromNew none = .ok s' ∧ s'.Owned ∧ s'.slots = none :: s.slots ∧ s'.raw = s.raw ∧ s'.py = s.py :=
  ⟨_, rfl, fun o => by simpa using h o, rfl, rfl, rfl⟩

theorem count_update (s : Refs) (o x n : ℕ) : Function.update s.cnt o n x = if x = o then n else s.cnt x := by
  rw [Function.update_apply]

theorem push_eff {s : Refs} (h : s.Owned) (p : Option ℕ) (hp : ∀ o, p = some o → 0 < s.cnt o) :
    ∃ t, s.inc p = .ok t ∧ (t.push p).Owned ∧ (t.push p).slots = p :: s.slots ∧ (t.push p).raw = s.raw ∧ (t.push p).py = s.py := by
  cases p with
  | none => exact ⟨s, rfl, fun o => by simpa [push] using h o, rfl, rfl, rfl⟩
  | some o =>
    refine ⟨_, inc_some (hp o rfl), fun x => ?_, rfl, rfl, rfl⟩
    have := h x
    simp only [push, count_update, List.count_cons]
    by_cases hx : x = o
    · subst hx; simp; omega
    · have hx' : ¬o = x := fun e => hx e.symm
      simp [hx, hx']; omega

theorem fromBorrowed_eff {s : Refs} (h : s.Owned) (p : Option ℕ) (hp : ∀ o, p = some o → 0 < s.cnt o) :
    ∃ s', s.fromBorrowed p = .ok s' ∧ s'.Owned ∧ s'.slots = p :: s.slots ∧ s'.raw = s.raw ∧ s'.py = s.py := by
  obtain ⟨t, h1, h2⟩ := push_eff h p hp
  exact ⟨_, by rw [fromBorrowed, h1]; rfl, h2⟩

theorem slot_pos {s : Refs} (h : s.Owned) {i : ℕ} {p : Option ℕ} (hi : s.slots[i]? = some p) : ∀ o, p = some o → 0 < s.cnt o := by
  rintro o rfl
  exact h.pos hi

theorem copy_eff {s : Refs} (h : s.Owned) {i : ℕ} {p : Option ℕ} (hi : s.slots[i]? = some p) :
    ∃ s', s.copy i = .ok s' ∧ s'.Owned ∧ s'.slots = p :: s.slots ∧ s'.raw = s.raw ∧ s'.py = s.py := by
  obtain ⟨t, h1, h2⟩ := push_eff h p (slot_pos h hi)
  exact ⟨_, by rw [copy, ptr_eq hi, Res.ok_bind, h1]; rfl, h2⟩

theorem getNew_eff {s : Refs} (h : s.Owned) {i o : ℕ} (hi : s.slots[i]? = some (some o)) :
    ∃ s', s.getNew i = .ok s' ∧ s'.Owned ∧ s'.slots = s.slots ∧ s'.raw = o :: s.raw ∧ s'.py = s.py := by
  refine ⟨{ s with cnt := Function.update s.cnt o (s.cnt o + 1), raw := o :: s.raw }, by rw [getNew, ptr_eq hi, Res.ok_bind, inc_some (h.pos hi)]; rfl, fun x => ?_, rfl, rfl, rfl⟩
  have := h x
  simp only [count_update, List.count_cons]
  by_cases hx : x = o
  · subst hx; simp; omega
  · have hx' : ¬o = x := fun e => hx e.symm
    simp [hx, hx']; omega

theorem getNew_null {s : Refs} {i : ℕ} (hi : s.slots[i]? = some none) : s.getNew i = .ok s := by
  rw [getNew, ptr_eq hi]; rfl

theorem copyCtor_eff {s : Refs} (h : s.Owned) {i : ℕ} {p : Option ℕ} (hi : s.slots[i]? = some p) :
    ∃ s', s.copyCtor i = .ok s' ∧ s'.Owned ∧ s'.slots = p :: s.slots ∧ s'.raw = s.raw ∧ s'.py = s.py := by
  rw [copyCtor, ptr_eq hi, Res.ok_bind]
  cases p with
  | none =>
    rw [getNew_null hi, Res.ok_bind]
    exact fromNew_null h
  | some o =>
    obtain ⟨t, h1, h2, h3, h4, h5⟩ := getNew_eff h hi
    rw [h1, Res.ok_bind]
    obtain ⟨u, k1, k2, k3, k4, k5⟩ := fromNew_eff h2 (o := o) (by rw [h4]; exact List.mem_cons_self ..)
    exact ⟨u, k1, k2, by rw [k3, h3], by rw [k4, h4]; simp, by rw [k5, h5]⟩

theorem count_set (l : List (Option ℕ)) (i : ℕ) (p q : Option ℕ) (hi : l[i]? = some p) (x : Option ℕ) :
    (l.set i q).count x + (if p = x then 1 else 0) = l.count x + (if q = x then 1 else 0) := by
  induction l generalizing i with
  | nil => simp at hi
  | cons a l ih =>
    cases i with
    | zero =>
      simp only [List.getElem?_cons_zero, Option.some.injEq] at hi
      subst hi
      simp only [List.set_cons_zero, List.count_cons, beq_iff_eq]
      ring
    | succ i =>
      simp only [List.getElem?_cons_succ] at hi
      have := ih i hi
      simp only [List.set_cons_succ, List.count_cons, beq_iff_eq]
      omega

theorem set_eff {s : Refs} (h : s.Owned) {i : ℕ} {p : Option ℕ} (hi : s.slots[i]? = some p) (q : Option ℕ) (t : Refs)
    (hc : ∀ x, t.cnt x = s.cnt x + (if q = some x then 1 else 0)) (hs : t.slots = s.slots.set i q) (hr : t.raw = s.raw) (hp : t.py = s.py) :
    ∃ s', t.dec p = .ok s' ∧ s'.Owned ∧ s'.slots = s.slots.set i q ∧ s'.raw = s.raw ∧ s'.py = s.py := by
  cases p with
  | none =>
    refine ⟨t, rfl, fun x => ?_, hs, hr, hp⟩
    have h1 := h x
    have h2 := count_set s.slots i none q hi (some x)
    rw [hc, hs, hr, hp]
    simp only [reduceCtorEq, if_false] at h2
    omega
  | some o =>
    have hpos := h.pos hi
    have hpos' : 0 < t.cnt o := by rw [hc]; omega
    refine ⟨_, dec_some hpos', fun x => ?_, hs, hr, hp⟩
    have h1 := h x
    have h2 := count_set s.slots i (some o) q hi (some x)
    simp only [count_update, hc, hs, hr, hp]
    simp only [Option.some.injEq] at h2
    by_cases hx : x = o
    · subst hx
      simp only [if_true] at h2 ⊢
      omega
    · have hx' : ¬o = x := fun e => hx e.symm
      simp only [hx, hx', if_false] at h2 ⊢
      omega

theorem destroy_eff {s : Refs} (h : s.Owned) {i : ℕ} {p : Option ℕ} (hi : s.slots[i]? = some p) :
    ∃ s', s.destroy i = .ok s' ∧ s'.Owned ∧ s'.slots = s.slots.set i none ∧ s'.raw = s.raw ∧ s'.py = s.py := by
  obtain ⟨u, h1, h2, h3, h4, h5⟩ := set_eff h hi none { s with slots := s.slots.set i none } (fun x => by simp) rfl rfl rfl
  refine ⟨u, ?_, h2, h3, h4, h5⟩
  rw [destroy, ptr_eq hi, Res.ok_bind]
  cases p with
  | none =>
    simp only [dec, Res.ok.injEq] at h1
    rw [dec, Res.ok_bind, h1]
  | some o =>
    have hp := h.pos hi
    rw [dec_some (s := { s with slots := s.slots.set i none }) hp, Res.ok.injEq] at h1
    rw [dec_some hp, Res.ok_bind, ← h1]

theorem assign_eff {s : Refs} (h : s.Owned) {i j : ℕ} {p q : Option ℕ} (hi : s.slots[i]? = some p) (hj : s.slots[j]? = some q) :
    ∃ s', s.assign i j = .ok s' ∧ s'.Owned ∧ s'.slots = s.slots.set i q ∧ s'.raw = s.raw ∧ s'.py = s.py := by
  by_cases hij : i = j
  · subst hij
    obtain rfl : p = q := by
      rw [hi] at hj
      exact Option.some.inj hj
    refine ⟨s, by rw [assign, if_pos rfl], h, ?_, rfl, rfl⟩
    obtain ⟨hl, rfl⟩ := List.getElem?_eq_some_iff.1 hi
    simp
  · rw [assign, if_neg hij, ptr_eq hi, Res.ok_bind, ptr_eq hj, Res.ok_bind]
    cases q with
    | none =>
      rw [inc, Res.ok_bind]
      exact set_eff h hi none { s with slots := s.slots.set i none } (fun x => by simp) rfl rfl rfl
    | some o =>
      rw [inc_some (h.pos hj), Res.ok_bind]
      refine set_eff h hi (some o) { s with cnt := Function.update s.cnt o (s.cnt o + 1), slots := s.slots.set i (some o) } (fun x => ?_) rfl rfl rfl
      simp only [count_update, Option.some.injEq]
      by_cases hx : x = o
      · subst hx; simp
      · have hx' : ¬o = x := fun e => hx e.symm
        simp [hx, hx']

theorem dtor_eff {s : Refs} (h : s.Owned) {p : Option ℕ} {t : List (Option ℕ)} (hs : s.slots = p :: t) :
    ∃ s', s.dtor = .ok s' ∧ s'.Owned ∧ s'.slots = t ∧ s'.raw = s.raw ∧ s'.py = s.py := by
  obtain ⟨u, h1, h2, h3, h4, h5⟩ := destroy_eff h (i := 0) (p := p) (by rw [hs]; rfl)
  refine ⟨{ u with slots := u.slots.tail }, by rw [dtor, h1]; rfl, fun o => ?_, by simp [h3, hs], h4, h5⟩
  have := h2 o
  rw [h3, hs] at this
  simp only [h3, hs]
  simpa using this

theorem pyNew_eff {s : Refs} (h : s.Owned) (o : ℕ) : ∃ s', s.pyNew o = .ok s' ∧ s'.Owned ∧ s'.slots = s.slots ∧ s'.raw = o :: s.raw ∧ s'.py = s.py := by
  refine ⟨_, rfl, fun x => ?_, rfl, rfl, rfl⟩
  have := h x
  simp only [count_update, List.count_cons]
  by_cases hx : x = o
  · subst hx; simp; omega
  · have hx' : ¬o = x := fun e => hx e.symm
    simp [hx, hx']; omega

theorem steal_eff {s : Refs} (h : s.Owned) {o : ℕ} (ho : o ∈ s.raw) :
    ∃ s', s.steal o = .ok s' ∧ s'.Owned ∧ s'.slots = s.slots ∧ s'.raw = s.raw.erase o ∧ s'.py = Function.update s.py o (s.py o + 1) := by
  refine ⟨_, rfl, fun x => ?_, rfl, rfl, rfl⟩
  have := h x
  have hp := List.count_pos_iff.2 ho
  simp only [List.count_erase, Function.update_apply]
  by_cases hx : x = o
  · subst hx; simp; omega
  · have hx' : ¬o = x := fun e => hx e.symm
    simp [hx, hx']; omega

theorem pyTake_eff {s : Refs} (h : s.Owned) {o : ℕ} (ho : 0 < s.cnt o) :
    ∃ s', s.pyTake o = .ok s' ∧ s'.Owned ∧ s'.slots = s.slots ∧ s'.raw = s.raw ∧ s'.py = Function.update s.py o (s.py o + 1) := by
  refine ⟨{ s with cnt := Function.update s.cnt o (s.cnt o + 1), py := Function.update s.py o (s.py o + 1) }, by rw [pyTake, inc_some ho]; rfl, fun x => ?_, rfl, rfl, rfl⟩
  have := h x
  simp only [Function.update_apply]
  by_cases hx : x = o
  · subst hx; simp; omega
  · simp [hx]; omega

theorem pyDrop_eff {s : Refs} (h : s.Owned) {o : ℕ} (ho : 0 < s.py o) :
    ∃ s', s.pyDrop o = .ok s' ∧ s'.Owned ∧ s'.slots = s.slots ∧ s'.raw = s.raw ∧ s'.py = Function.update s.py o (s.py o - 1) := by
  refine ⟨{ s with cnt := Function.update s.cnt o (s.cnt o - 1), py := Function.update s.py o (s.py o - 1) }, by rw [pyDrop, dec_some (h.py_pos ho)]; rfl, fun x => ?_, rfl, rfl, rfl⟩
  have := h x
  simp only [Function.update_apply]
  by_cases hx : x = o
  · subst hx; simp; omega
  · simp [hx]; omega

/-! ## All executions -/

end Refs

open Refs in
/-- **C83**: as long as every caller keeps to the rules, any call of a member of `Object` on any instance, and anything the interpreter does, returns (nothing that is not allocated is
touched), and afterwards every reference has one owner again. -/
theorem C83_step (s : Refs) (h : s.Owned) (op : Op) (ha : op.Allowed s) : ∃ s', op.run s = .ok s' ∧ s'.Owned := by
  have get : ∀ {i}, i < s.slots.length → s.slots[i]? = some s.slots[i]! := by
    intro i hi
    rw [List.getElem?_eq_getElem hi, getElem!_pos s.slots i hi]
  cases op with
  | ctor => obtain ⟨t, h1, h2, -⟩ := ctor_eff h; exact ⟨t, h1, h2⟩
  | fromNew p => cases p with
    | none => obtain ⟨t, h1, h2, -⟩ := fromNew_null h; exact ⟨t, h1, h2⟩
    | some o => obtain ⟨t, h1, h2, -⟩ := fromNew_eff h (ha o rfl); exact ⟨t, h1, h2⟩
  | fromBorrowed p => obtain ⟨t, h1, h2, -⟩ := fromBorrowed_eff h p ha; exact ⟨t, h1, h2⟩
  | getNew i =>
    rcases hp : s.slots[i]! with _ | o
    · exact ⟨s, getNew_null ((get ha).trans (by rw [hp])), h⟩
    · obtain ⟨t, h1, h2, -⟩ := getNew_eff h ((get ha).trans (by rw [hp])); exact ⟨t, h1, h2⟩
  | copyCtor i => obtain ⟨t, h1, h2, -⟩ := copyCtor_eff h (get ha); exact ⟨t, h1, h2⟩
  | copy i => obtain ⟨t, h1, h2, -⟩ := copy_eff h (get ha); exact ⟨t, h1, h2⟩
  | assign i j => obtain ⟨t, h1, h2, -⟩ := assign_eff h (get ha.1) (get ha.2); exact ⟨t, h1, h2⟩
  | destroy i => obtain ⟨t, h1, h2, -⟩ := destroy_eff h (get ha); exact ⟨t, h1, h2⟩
  | dtor =>
    obtain ⟨p, l, hl⟩ := List.exists_cons_of_ne_nil ha
    obtain ⟨t, h1, h2, -⟩ := dtor_eff h hl; exact ⟨t, h1, h2⟩
  | pyNew o => obtain ⟨t, h1, h2, -⟩ := pyNew_eff h o; exact ⟨t, h1, h2⟩
  | steal o => obtain ⟨t, h1, h2, -⟩ := steal_eff h ha; exact ⟨t, h1, h2⟩
  | pyTake o => obtain ⟨t, h1, h2, -⟩ := pyTake_eff h ha; exact ⟨t, h1, h2⟩
  | pyDrop o => obtain ⟨t, h1, h2, -⟩ := pyDrop_eff h ha; exact ⟨t, h1, h2⟩

open Refs in
/-- **C83**, executions: in every state reached by allowed calls an object is allocated exactly while an instance of `Object`, a plain pointer or the interpreter owns a reference to it;
so no instance dangles and nothing leaks; and no allowed call is undefined. -/
theorem C83_exec {s t : Refs} (hs : s.Owned) (he : Exec s t) :
    (∀ o, 0 < t.cnt o ↔ some o ∈ t.slots ∨ o ∈ t.raw ∨ 0 < t.py o) ∧ ∀ op : Op, op.Allowed t → ∃ u, op.run t = .ok u := by
  have ht : t.Owned := by
    induction he with
    | refl => exact hs
    | step op _ ha hr ih =>
      obtain ⟨u, h1, h2⟩ := C83_step _ ih op ha
      rw [hr] at h1
      exact Res.ok.inj h1 ▸ h2
  refine ⟨fun o => ?_, fun op ha => ?_⟩
  · rw [ht o, ← List.count_pos_iff, ← List.count_pos_iff]
    omega
  · obtain ⟨u, h1, -⟩ := C83_step _ ht op ha
    exact ⟨u, h1⟩

open Refs in
/-- **C83**, what the members do: a copy points to the same object, an assignment makes the left side point to the object of the right side, also when both are the same instance
or point to the same object, `Destroy` leaves a null pointer; other instances and other owners are not touched. -/
theorem C83_members (s : Refs) (h : s.Owned) (i j : ℕ) (p q : Option ℕ) (hi : s.slots[i]? = some p) (hj : s.slots[j]? = some q) :
    (∃ t, s.copyCtor i = .ok t ∧ t.slots = p :: s.slots ∧ t.raw = s.raw ∧ t.py = s.py) ∧
    (∃ t, s.copy i = .ok t ∧ t.slots = p :: s.slots ∧ t.raw = s.raw ∧ t.py = s.py) ∧
    (∃ t, s.assign i j = .ok t ∧ t.slots = s.slots.set i q ∧ t.raw = s.raw ∧ t.py = s.py) ∧
    (∃ t, s.destroy i = .ok t ∧ t.slots = s.slots.set i none ∧ t.raw = s.raw ∧ t.py = s.py) ∧
    (∃ t, s.dtor = .ok t ∧ t.slots = s.slots.tail ∧ t.raw = s.raw ∧ t.py = s.py) := by
  refine ⟨?_, ?_, ?_, ?_, ?_⟩
  · obtain ⟨t, h1, -, h2⟩ := copyCtor_eff h hi; exact ⟨t, h1, h2⟩
  · obtain ⟨t, h1, -, h2⟩ := copy_eff h hi; exact ⟨t, h1, h2⟩
  · obtain ⟨t, h1, -, h2⟩ := assign_eff h hi hj; exact ⟨t, h1, h2⟩
  · obtain ⟨t, h1, -, h2⟩ := destroy_eff h hi; exact ⟨t, h1, h2⟩
  · cases hl : s.slots with
    | nil => rw [hl] at hi; simp at hi
    | cons a l => obtain ⟨t, h1, -, h2⟩ := dtor_eff h hl; exact ⟨t, h1, h2⟩

namespace Refs

/-! ## Functions of the glue -/

theorem new_eff {s : Refs} (h : s.Owned) (o : ℕ) :
    ∃ s', (s.pyNew o).bind (fun s => s.fromNew (some o)) = .ok s' ∧ s'.Owned ∧ s'.slots = some o :: s.slots ∧ s'.raw = s.raw ∧ s'.py = s.py := by
  obtain ⟨t, h1, h2, h3, h4, h5⟩ := pyNew_eff h o
  obtain ⟨u, k1, k2, k3, k4, k5⟩ := fromNew_eff h2 (o := o) (by rw [h4]; exact List.mem_cons_self ..)
  exact ⟨u, by rw [h1]; exact k1, k2, by rw [k3, h3], by rw [k4, h4]; simp, by rw [k5, h5]⟩

end Refs

open Refs in
/-- **C83**, values to Python: the result of `CastToPy` of a simple value is owned by the instance returned, and by nobody else. -/
theorem C83_cast_leaf (o : ℕ) : Makes (castLeaf o) := by
  intro s h
  obtain ⟨t, h1, h2, h3, h4, h5⟩ := new_eff h o
  exact ⟨t, o, h1, h2, h3, h4, fun x => by rw [h5]⟩

namespace Refs

theorem castItems_eff (fs : List (Refs → Res Refs)) (hf : ∀ f ∈ fs, Makes f) : ∀ s : Refs, s.Owned →
    ∃ s', castItems fs s = .ok s' ∧ s'.Owned ∧ s'.slots = s.slots ∧ s'.raw = s.raw ∧ ∀ x, s.py x ≤ s'.py x := by
  induction fs with
  | nil => intro s h; exact ⟨s, rfl, h, rfl, rfl, fun _ => le_rfl⟩
  | cons f fs ih =>
    intro s h
    obtain ⟨t, o, h1, h2, h3, h4, h5⟩ := hf f (List.mem_cons_self ..) s h
    have hi : t.slots[0]? = some (some o) := by rw [h3]; rfl
    obtain ⟨u, k1, k2, k3, k4, k5⟩ := getNew_eff h2 hi
    obtain ⟨v, l1, l2, l3, l4, l5⟩ := steal_eff k2 (o := o) (by rw [k4]; exact List.mem_cons_self ..)
    obtain ⟨w, m1, m2, m3, m4, m5⟩ := dtor_eff l2 (p := some o) (t := s.slots) (by rw [l3, k3, h3])
    obtain ⟨y, n1, n2, n3, n4, n5⟩ := ih (fun g hg => hf g (List.mem_cons_of_mem _ hg)) w m2
    refine ⟨y, ?_, n2, by rw [n3, m3], by rw [n4, m4, l4, k4, ← h4]; simp, fun x => ?_⟩
    · rw [castItems, h1, Res.ok_bind, ptr_eq hi, Res.ok_bind, k1, Res.ok_bind]
      simp only [l1, Res.ok_bind, m1, n1]
    · refine (h5 x).trans (le_trans ?_ (n5 x))
      rw [m5, l5, k5, Function.update_apply]
      split
      · next hx => rw [hx]; omega
      · exact le_rfl

end Refs

open Refs in
/-- **C83**, containers to Python: `CastToPyList` gives every item to the list, to any depth, and the list to the instance returned. -/
theorem C83_cast_list (o : ℕ) (fs : List (Refs → Res Refs)) (hf : ∀ f ∈ fs, Makes f) : Makes (castList o fs) := by
  intro s h
  obtain ⟨t, h1, h2, h3, h4, h5⟩ := new_eff h o
  obtain ⟨u, k1, k2, k3, k4, k5⟩ := castItems_eff fs hf t h2
  refine ⟨u, o, ?_, k2, by rw [k3, h3], by rw [k4, h4], fun x => by rw [← h5]; exact k5 x⟩
  rw [castList]
  rw [pyNew, Res.bind_ok] at h1
  rw [pyNew, Res.ok_bind, h1, Res.ok_bind, k1]

namespace Refs

theorem castEntries_eff (fs : List ((Refs → Res Refs) × (Refs → Res Refs))) (hf : ∀ f ∈ fs, Makes f.1 ∧ Makes f.2) : ∀ s : Refs, s.Owned →
    ∃ s', castEntries fs s = .ok s' ∧ s'.Owned ∧ s'.slots = s.slots ∧ s'.raw = s.raw ∧ ∀ x, s.py x ≤ s'.py x := by
  induction fs with
  | nil => intro s h; exact ⟨s, rfl, h, rfl, rfl, fun _ => le_rfl⟩
  | cons f fs ih =>
    intro s h
    obtain ⟨f, g⟩ := f
    have hfg : Makes f ∧ Makes g := hf _ (List.mem_cons_self ..)
    obtain ⟨t, a, h1, h2, h3, h4, h5⟩ := hfg.1 s h
    obtain ⟨u, b, k1, k2, k3, k4, k5⟩ := hfg.2 t h2
    have hi : u.slots[0]? = some (some b) := by rw [k3]; rfl
    have hj : u.slots[1]? = some (some a) := by rw [k3, h3]; rfl
    obtain ⟨v, l1, l2, l3, l4, l5⟩ := pyTake_eff k2 (k2.pos hj)
    obtain ⟨w, m1, m2, m3, m4, m5⟩ := pyTake_eff l2 (o := b) (l2.pos (i := 0) (by rw [l3]; exact hi))
    obtain ⟨y, n1, n2, n3, n4, n5⟩ := dtor_eff m2 (p := some b) (t := some a :: s.slots) (by rw [m3, l3, k3, h3])
    obtain ⟨z, o1, o2, o3, o4, o5⟩ := dtor_eff n2 (p := some a) (t := s.slots) n3
    obtain ⟨r, p1, p2, p3, p4, p5⟩ := ih (fun g hg => hf g (List.mem_cons_of_mem _ hg)) z o2
    refine ⟨r, ?_, p2, by rw [p3, o3], by rw [p4, o4, n4, m4, l4, k4, h4], fun x => ?_⟩
    · rw [castEntries, h1, Res.ok_bind, k1, Res.ok_bind, ptr_eq hi, Res.ok_bind, ptr_eq hj, Res.ok_bind]
      simp only [l1, Res.ok_bind, m1, n1, o1, p1]
    · refine (h5 x).trans ((k5 x).trans (le_trans ?_ (p5 x)))
      rw [o5, n5, m5, l5]
      simp only [Function.update_apply]
      by_cases hxa : x = a <;> by_cases hxb : x = b <;> by_cases hab : b = a <;> simp_all [Nat.add_assoc]

end Refs

open Refs in
/-- **C83**, maps to Python: `PyDict_SetItem` takes references of its own and the two instances give theirs up. -/
theorem C83_cast_map (o : ℕ) (fs : List ((Refs → Res Refs) × (Refs → Res Refs))) (hf : ∀ f ∈ fs, Makes f.1 ∧ Makes f.2) : Makes (castMap o fs) := by
  intro s h
  obtain ⟨t, h1, h2, h3, h4, h5⟩ := new_eff h o
  obtain ⟨u, k1, k2, k3, k4, k5⟩ := castEntries_eff fs hf t h2
  refine ⟨u, o, ?_, k2, by rw [k3, h3], by rw [k4, h4], fun x => by rw [← h5]; exact k5 x⟩
  rw [castMap]
  rw [pyNew, Res.bind_ok] at h1
  rw [pyNew, Res.ok_bind, h1, Res.ok_bind, k1]

open Refs in
/-- **C83**, simple values from Python: the counts are what they were. -/
theorem C83_convert_leaf : Reads [] convertLeaf := by
  intro s o rest h hs _
  obtain ⟨t, h1, h2, h3, h4, h5⟩ := copyCtor_eff h (i := 0) (p := some o) (by rw [hs]; rfl)
  obtain ⟨u, k1, k2, k3, k4, k5⟩ := dtor_eff h2 h3
  rw [convertLeaf, h1, Res.ok_bind, k1, k2.ext h k3 (k4.trans h4) (k5.trans h5)]

namespace Refs

theorem item_eff {held : List ℕ} {f : Refs → Res Refs} (hf : Reads held f) {s : Refs} (h : s.Owned) (hh : ∀ x ∈ held, 0 < s.py x) {x : ℕ} (hx : 0 < s.py x) :
    ∃ t, s.fromBorrowed (some x) = .ok t ∧ f t = .ok t ∧ t.dtor = .ok s := by
  obtain ⟨t, h1, h2, h3, h4, h5⟩ := fromBorrowed_eff h (some x) (by rintro o ⟨⟩; exact h.py_pos hx)
  obtain ⟨u, k1, k2, k3, k4, k5⟩ := dtor_eff h2 h3
  refine ⟨t, h1, hf t x s.slots h2 h3 (by rw [h5]; exact hh), ?_⟩
  rw [k1, k2.ext h k3 (k4.trans h4) (k5.trans h5)]

theorem convertItems_eff {held : List ℕ} (xs : List (ℕ × (Refs → Res Refs))) (hx : ∀ x ∈ xs, x.1 ∈ held ∧ Reads held x.2) :
    ∀ s : Refs, s.Owned → (∀ x ∈ held, 0 < s.py x) → convertItems xs s = .ok s := by
  induction xs with
  | nil => intro s _ _; rfl
  | cons x xs ih =>
    intro s h hh
    obtain ⟨x, f⟩ := x
    have hx0 : x ∈ held ∧ Reads held f := hx _ (List.mem_cons_self ..)
    obtain ⟨t, h1, h2, h3⟩ := item_eff hx0.2 h hh (hh _ hx0.1)
    rw [convertItems, h1, Res.ok_bind, h2, Res.ok_bind, h3, Res.ok_bind]
    exact ih (fun y hy => hx y (List.mem_cons_of_mem _ hy)) s h hh

end Refs

open Refs in
/-- **C83**, lists from Python: all counts are what they were, to any depth; the items have to be held by the list (by the interpreter). -/
theorem C83_convert_list {held : List ℕ} (xs : List (ℕ × (Refs → Res Refs))) (hx : ∀ x ∈ xs, x.1 ∈ held ∧ Reads held x.2) : Reads held (convertList xs) := by
  intro s o rest h hs hh
  obtain ⟨t, h1, h2, h3, h4, h5⟩ := copyCtor_eff h (i := 0) (p := some o) (by rw [hs]; rfl)
  obtain ⟨u, k1, k2, k3, k4, k5⟩ := copyCtor_eff h2 (i := 0) (p := some o) (by rw [h3]; rfl)
  obtain ⟨v, l1, l2, l3, l4, l5⟩ := dtor_eff k2 k3
  obtain ⟨w, m1, m2, m3, m4, m5⟩ := dtor_eff l2 (l3.trans h3)
  rw [convertList, h1, Res.ok_bind, k1, Res.ok_bind, convertItems_eff xs hx u k2 (by rw [k5, h5]; exact hh), Res.ok_bind, l1, Res.ok_bind, m1]
  rw [m2.ext h m3 (by rw [m4, l4, k4, h4]) (by rw [m5, l5, k5, h5])]

namespace Refs

theorem convertEntries_eff {held : List ℕ} (xs : List ((ℕ × (Refs → Res Refs)) × (ℕ × (Refs → Res Refs))))
    (hx : ∀ x ∈ xs, (x.1.1 ∈ held ∧ Reads held x.1.2) ∧ x.2.1 ∈ held ∧ Reads held x.2.2) :
    ∀ s : Refs, s.Owned → (∀ x ∈ held, 0 < s.py x) → convertEntries xs s = .ok s := by
  induction xs with
  | nil => intro s _ _; rfl
  | cons x xs ih =>
    intro s h hh
    obtain ⟨⟨a, f⟩, b, g⟩ := x
    have hx0 : (a ∈ held ∧ Reads held f) ∧ b ∈ held ∧ Reads held g := hx _ (List.mem_cons_self ..)
    obtain ⟨t, h1, h2, h3⟩ := item_eff hx0.1.2 h hh (hh _ hx0.1.1)
    obtain ⟨u, k1, k2, k3⟩ := item_eff hx0.2.2 h hh (hh _ hx0.2.1)
    rw [convertEntries, h1, Res.ok_bind, h2, Res.ok_bind, h3, Res.ok_bind, k1, Res.ok_bind, k2, Res.ok_bind, k3, Res.ok_bind]
    exact ih (fun y hy => hx y (List.mem_cons_of_mem _ hy)) s h hh

end Refs

open Refs in
/-- **C83**, maps from Python. -/
theorem C83_convert_map {held : List ℕ} (xs : List ((ℕ × (Refs → Res Refs)) × (ℕ × (Refs → Res Refs))))
    (hx : ∀ x ∈ xs, (x.1.1 ∈ held ∧ Reads held x.1.2) ∧ x.2.1 ∈ held ∧ Reads held x.2.2) : Reads held (convertMap xs) := by
  intro s o rest h hs hh
  obtain ⟨t, h1, h2, h3, h4, h5⟩ := copyCtor_eff h (i := 0) (p := some o) (by rw [hs]; rfl)
  obtain ⟨u, k1, k2, k3, k4, k5⟩ := dtor_eff h2 h3
  rw [convertMap, h1, Res.ok_bind, convertEntries_eff xs hx t h2 (by rw [h5]; exact hh), Res.ok_bind, k1, k2.ext h k3 (k4.trans h4) (k5.trans h5)]

namespace Refs

theorem erase_eff {s : Refs} (h : s.Owned) {i : ℕ} (hi : s.slots[i]? = some none) : ({ s with slots := s.slots.eraseIdx i } : Refs).Owned := by
  intro o
  have := h o
  have key : ∀ (l : List (Option ℕ)) (i : ℕ), l[i]? = some none → (l.eraseIdx i).count (some o) = l.count (some o) := by
    intro l
    induction l with
    | nil => intro i hi; simp at hi
    | cons a l ih =>
      intro i hi
      cases i with
      | zero =>
        simp only [List.getElem?_cons_zero, Option.some.injEq] at hi
        subst hi
        simp
      | succ i =>
        simp only [List.getElem?_cons_succ] at hi
        simp [List.count_cons, ih i hi]
  simp only [key s.slots i hi]
  exact this

theorem getAttr_eff {s : Refs} (h : s.Owned) (o : ℕ) : ∃ s', s.getAttr o = .ok s' ∧ s'.Owned ∧ s'.slots = some o :: s.slots ∧ s'.raw = s.raw ∧ s'.py = s.py := by
  obtain ⟨t, h1, h2, h3, h4, h5⟩ := new_eff h o
  obtain ⟨u, k1, k2, k3, k4, k5⟩ := copyCtor_eff h2 (i := 0) (p := some o) (by rw [h3]; rfl)
  obtain ⟨v, l1, l2, l3, l4, l5⟩ := destroy_eff k2 (i := 1) (p := some o) (by rw [k3, h3]; rfl)
  have l3' : v.slots = some o :: none :: s.slots := by rw [l3, k3, h3]; rfl
  refine ⟨{ v with slots := v.slots.eraseIdx 1 }, ?_, erase_eff l2 (by rw [l3']; rfl), by simp [l3'], by simp [l4, k4, h4], by simp [l5, k5, h5]⟩
  rw [pyNew, Res.bind_ok] at h1
  rw [getAttr, pyNew, Res.ok_bind, h1, Res.ok_bind, k1, Res.ok_bind, l1, Res.ok_bind]

end Refs

open Refs in
/-- **C83**, calls: after `CallFunction` with any number of arguments the instance returned owns the result, the function and the tuple of arguments have been given up, and the
arguments are owned by the tuple alone. -/
theorem C83_call (func tup res : ℕ) (args : List (Refs → Res Refs)) (ha : ∀ f ∈ args, Makes f) (s : Refs) (h : s.Owned) :
    ∃ s', s.callFunction func tup res args = .ok s' ∧ s'.Owned ∧ s'.slots = some res :: s.slots ∧ s'.raw = s.raw ∧ ∀ x, s.py x ≤ s'.py x := by
  obtain ⟨t, h1, h2, h3, h4, h5⟩ := getAttr_eff h func
  obtain ⟨t1, e1, e2, e3, e4, e5⟩ := new_eff h2 tup
  obtain ⟨u, k1, k2, k3, k4, k5⟩ := castItems_eff args ha t1 e2
  have k3' : u.slots = some tup :: some func :: s.slots := by rw [k3, e3, h3]
  obtain ⟨v, l1, l2, l3, l4, l5⟩ := new_eff k2 res
  have l3' : v.slots = some res :: some tup :: some func :: s.slots := by rw [l3, k3']
  obtain ⟨w, m1, m2, m3, m4, m5⟩ := destroy_eff l2 (i := 1) (p := some tup) (by rw [l3']; rfl)
  have m3' : w.slots = some res :: none :: some func :: s.slots := by rw [m3, l3']; rfl
  obtain ⟨y, n1, n2, n3, n4, n5⟩ := destroy_eff m2 (i := 2) (p := some func) (by rw [m3']; rfl)
  have n3' : y.slots = some res :: none :: none :: s.slots := by rw [n3, m3']; rfl
  have o1 := erase_eff n2 (i := 2) (by rw [n3']; rfl)
  have o2 := erase_eff o1 (i := 1) (by simp [n3'])
  refine ⟨_, ?_, o2, by simp [n3'], by simp [n4, m4, l4, k4, e4, h4], fun x => ?_⟩
  · rw [pyNew, Res.bind_ok] at e1 l1
    rw [callFunction, h1, Res.ok_bind, castList, pyNew, Res.ok_bind, e1, Res.ok_bind, k1, Res.ok_bind, pyNew, Res.ok_bind, l1, Res.ok_bind, m1, Res.ok_bind, n1, Res.ok_bind]
  · have := k5 x
    rw [e5, h5] at this
    simpa only [n5, m5, l5] using this

open Refs in
/-- **C83**, scripts: after `EvalScript` the object owns the result and nothing else has changed hands; what it owned before is given up. -/
theorem C83_eval (main global loc res : ℕ) (p : Option ℕ) (rest : List (Option ℕ)) (s : Refs) (h : s.Owned) (hs : s.slots = p :: rest) (hm : 0 < s.py main) (hg : 0 < s.py global) :
    ∃ s', s.evalScript main global loc res = .ok s' ∧ s'.Owned ∧ s'.slots = some res :: rest ∧ s'.raw = s.raw ∧ s'.py = s.py := by
  obtain ⟨a, a1, a2, a3, a4, a5⟩ := fromBorrowed_eff h (some main) (by rintro o ⟨⟩; exact h.py_pos hm)
  obtain ⟨b, b1, b2, b3, b4, b5⟩ := fromBorrowed_eff a2 (some global) (by rintro o ⟨⟩; exact a2.py_pos (by rw [a5]; exact hg))
  obtain ⟨c, c1, c2, c3, c4, c5⟩ := new_eff b2 loc
  obtain ⟨d, d1, d2, d3, d4, d5⟩ := new_eff c2 res
  have d3' : d.slots = some res :: some loc :: some global :: some main :: p :: rest := by rw [d3, c3, b3, a3, hs]
  obtain ⟨e, e1, e2, e3, e4, e5⟩ := assign_eff d2 (i := 4) (j := 0) (p := p) (q := some res) (by rw [d3']; rfl) (by rw [d3']; rfl)
  have e3' : e.slots = some res :: some loc :: some global :: some main :: some res :: rest := by rw [e3, d3']; rfl
  obtain ⟨f, f1, f2, f3, f4, f5⟩ := dtor_eff e2 e3'
  obtain ⟨g, g1, g2, g3, g4, g5⟩ := dtor_eff f2 f3
  obtain ⟨i, i1, i2, i3, i4, i5⟩ := dtor_eff g2 g3
  obtain ⟨j, j1, j2, j3, j4, j5⟩ := dtor_eff i2 i3
  refine ⟨j, ?_, j2, j3, by rw [j4, i4, g4, f4, e4, d4, c4, b4, a4], by rw [j5, i5, g5, f5, e5, d5, c5, b5, a5]⟩
  rw [pyNew, Res.bind_ok] at c1 d1
  rw [evalScript, a1, Res.ok_bind, b1, Res.ok_bind, pyNew, Res.ok_bind, c1, Res.ok_bind, pyNew, Res.ok_bind, d1, Res.ok_bind, e1, Res.ok_bind, f1, Res.ok_bind, g1, Res.ok_bind,
    i1, Res.ok_bind, j1]

open Refs in
/-- **C83**, arrays: an `ArrayObject` made from an `Object` owns one reference, to the same array if it is contiguous, to the copy if not. -/
theorem C83_array (s : Refs) (h : s.Owned) (i : ℕ) (p : Option ℕ) (hi : s.slots[i]? = some p) (o : ℕ) (c : Bool) :
    ∃ s', s.arrayFrom i c o = .ok s' ∧ s'.Owned ∧ s'.slots = (if c then p else some o) :: s.slots ∧ s'.raw = s.raw ∧ s'.py = s.py := by
  cases c with
  | true =>
    rw [arrayFrom, if_pos rfl]
    exact copyCtor_eff h hi
  | false =>
    rw [arrayFrom, if_neg (by simp)]
    exact new_eff h o

namespace Refs

/-! ## Tuples -/

theorem leaf_item (s : Refs) (x : ℕ) (hx : 0 < s.cnt x) : ∃ t, s.fromBorrowed (some x) = .ok t ∧ convertLeaf t = .ok t ∧ t.dtor = .ok s := by
  refine ⟨{ s with cnt := Function.update s.cnt x (s.cnt x + 1), slots := some x :: s.slots }, ?_, ?_, ?_⟩
  · rw [fromBorrowed, inc_some hx]; rfl
  · simp [convertLeaf, copyCtor, getNew, ptr, inc, fromNew, dtor, destroy, dec]
  · simp [dtor, destroy, ptr, dec]

theorem addToTuple_eff (t : ℕ) (xs : List ℕ) : ∀ (x : ℕ) (s : Refs) (rest : List (Option ℕ)), (∀ y ∈ x :: xs, y ≠ t ∧ 0 < s.cnt y) → t ∉ s.raw → s.slots = some t :: rest →
    addToTuple ((x :: xs).map fun y => (y, convertLeaf)) s =
      if xs.length ≤ s.cnt t then .ok { s with cnt := Function.update s.cnt t (s.cnt t - xs.length) } else .ub := by
  induction xs with
  | nil =>
    intro x s rest hx _ hs
    obtain ⟨u, h1, h2, h3⟩ := leaf_item s x (hx x (by simp)).2
    simp [addToTuple, h1, h2, h3]
  | cons y xs ih =>
    intro x s rest hx hr hs
    have hx0 := hx x (by simp)
    simp only [List.map_cons, addToTuple]
    rw [ptr_eq (i := 0) (p := some t) (by rw [hs]; rfl), Res.ok_bind]
    have hn : s.fromNew (some t) = .ok { s with slots := some t :: s.slots } := by
      simp [fromNew, List.erase_of_not_mem hr]
    rw [hn, Res.ok_bind]
    have := ih y { s with slots := some t :: s.slots } s.slots (fun z hz => hx z (List.mem_cons_of_mem _ hz)) hr rfl
    rw [List.map_cons] at this
    rw [this]
    by_cases hle : xs.length ≤ s.cnt t
    · rw [if_pos hle, Res.ok_bind]
      by_cases hlt : xs.length + 1 ≤ s.cnt t
      · rw [if_pos (by simpa using hlt)]
        have hd : dtor { cnt := Function.update s.cnt t (s.cnt t - xs.length), slots := some t :: s.slots, raw := s.raw, py := s.py } =
            .ok { s with cnt := Function.update s.cnt t (s.cnt t - (y :: xs).length) } := by
          have h0 : ¬s.cnt t - xs.length = 0 := by omega
          simp only [dtor, destroy, ptr, dec, List.getElem?_cons_zero, Res.ok_bind, Function.update_self, h0, if_false, Function.update_idem, List.set_cons_zero, List.tail_cons,
            List.length_cons, Nat.sub_sub]
        rw [hd, Res.ok_bind]
        obtain ⟨u, h1, h2, h3⟩ := leaf_item { s with cnt := Function.update s.cnt t (s.cnt t - (y :: xs).length) } x (by
          simp only [Function.update_apply, if_neg hx0.1]; exact hx0.2)
        rw [h1, Res.ok_bind, h2, Res.ok_bind, h3]
      · rw [if_neg (by simpa using hlt)]
        have h0 : s.cnt t - xs.length = 0 := by omega
        simp [dtor, destroy, ptr, dec, h0]
    · rw [if_neg hle, if_neg (by simp; omega), Res.ub_bind]

end Refs

open Refs in
/-- C83 fails for tuples: the conversion of a tuple with `n` items takes away `n - 1` references that others own; if there are fewer, the tuple is freed and then used. -/
theorem C83_refuted_tuple (s : Refs) (h : s.Owned) (t x : ℕ) (xs : List ℕ) (rest : List (Option ℕ)) (hs : s.slots = some t :: rest) (hr : t ∉ s.raw)
    (hx : ∀ y ∈ x :: xs, y ≠ t ∧ 0 < s.py y) :
    s.convertTuple ((x :: xs).map fun y => (y, convertLeaf)) =
      if xs.length ≤ s.cnt t then .ok { s with cnt := Function.update s.cnt t (s.cnt t - xs.length) } else .ub := by
  have hpos : 0 < s.cnt t := h.pos (i := 0) (by rw [hs]; rfl)
  have hc : ∀ (c : ℕ → ℕ) (l : List (Option ℕ)), 0 < c t → copyCtor ⟨c, some t :: l, s.raw, s.py⟩ 0 =
      .ok ⟨Function.update c t (c t + 1), some t :: some t :: l, s.raw, s.py⟩ := by
    intro c l hp
    have : c t ≠ 0 := by omega
    simp [copyCtor, ptr, getNew, inc, fromNew, this]
  have hd : ∀ (c : ℕ → ℕ) (l : List (Option ℕ)), 0 < c t → dtor ⟨c, some t :: l, s.raw, s.py⟩ = .ok ⟨Function.update c t (c t - 1), l, s.raw, s.py⟩ := by
    intro c l hp
    have : c t ≠ 0 := by omega
    simp [dtor, destroy, ptr, dec, this]
  have hs' : s = ⟨s.cnt, some t :: rest, s.raw, s.py⟩ := by
    rw [← hs]
  rw [convertTuple]
  rw [show s.copyCtor 0 = _ from (congrArg (fun s => copyCtor s 0) hs').trans (hc s.cnt rest hpos), Res.ok_bind, hc _ _ (by simp), Res.ok_bind]
  rw [addToTuple_eff t xs x ⟨Function.update (Function.update s.cnt t (s.cnt t + 1)) t (Function.update s.cnt t (s.cnt t + 1) t + 1), some t :: some t :: some t :: rest, s.raw,
    s.py⟩ (some t :: some t :: rest) (fun y hy => ⟨(hx y hy).1, by
    simp only [Function.update_apply, if_neg (hx y hy).1]
    exact h.py_pos (hx y hy).2⟩) hr rfl]
  simp only [Function.update_self, Function.update_idem]
  by_cases hle : xs.length ≤ s.cnt t
  · rw [if_pos hle, if_pos (by omega), Res.ok_bind, hd _ _ (by simp; omega), Res.ok_bind, hd _ _ (by simp; omega)]
    simp only [Function.update_self, Function.update_idem, hs]
    congr 3
    omega
  · rw [if_neg hle]
    by_cases h2 : xs.length ≤ s.cnt t + 1 + 1
    · rw [if_pos h2, Res.ok_bind]
      by_cases h3 : s.cnt t + 1 + 1 - xs.length = 0
      · simp [dtor, destroy, ptr, dec, h3]
      · rw [hd _ _ (by simp; omega), Res.ok_bind]
        have h4 : s.cnt t + 1 + 1 - xs.length - 1 = 0 := by omega
        simp [dtor, destroy, ptr, dec, h4]
    · rw [if_neg h2, Res.ub_bind]

namespace Refs

/-! ## Cases -/

/-- The start of the program: no instance, the interpreter owns the objects that exist. -/
def start : Refs := ⟨fun o => if o = 0 then 1 else 0, [], [], fun o => if o = 0 then 1 else 0⟩

example : start.Owned := fun o => by simp [start]

/-- C83 on a case: an object is made, put into an instance, copied, and both instances are destroyed; then it is freed. -/
example : ∃ t, Exec start t ∧ t.cnt 7 = 0 ∧ t.cnt 0 = 1 := by
  refine ⟨_, .step .dtor (.step .dtor (.step (.copyCtor 0) (.step (.fromNew (some 7)) (.step (.pyNew 7) (.refl start) trivial rfl) ?_ rfl) ?_ rfl) ?_ rfl) ?_ rfl, ?_, ?_⟩
  · rintro o ⟨⟩
    exact List.mem_cons_self ..
  · exact Nat.zero_lt_succ _
  · exact List.cons_ne_nil _ _
  · exact List.cons_ne_nil _ _
  · rfl
  · rfl

/-- C83 on a case: nested lists with a map inside are owned by the result. -/
example : Makes (castList 1 [castLeaf 2, castList 3 [castLeaf 4, castLeaf 4], castMap 5 [(castLeaf 6, castLeaf 7)]]) := by
  refine C83_cast_list 1 _ fun f hf => ?_
  simp only [List.mem_cons, List.not_mem_nil, or_false] at hf
  rcases hf with rfl | rfl | rfl
  · exact C83_cast_leaf 2
  · refine C83_cast_list 3 _ fun f hf => ?_
    simp only [List.mem_cons, List.not_mem_nil, or_false, or_self] at hf
    exact hf ▸ C83_cast_leaf 4
  · refine C83_cast_map 5 _ fun f hf => ?_
    simp only [List.mem_cons, List.not_mem_nil, or_false] at hf
    exact hf ▸ ⟨C83_cast_leaf 6, C83_cast_leaf 7⟩

/-- A tuple of two items with one owner. -/
def pairState : Refs := ⟨fun o => if o < 3 then 1 else 0, [some 0], [], fun o => if o = 1 ∨ o = 2 then 1 else 0⟩

end Refs

open Refs in
/-- The conversion of a pair with one owner leaves the owner with a pointer to an object that is not allocated, and its destructor is undefined. -/
theorem C83_refuted_pair : pairState.Owned ∧ ∃ s', pairState.convertTuple [(2, convertLeaf), (1, convertLeaf)] = .ok s' ∧ some 0 ∈ s'.slots ∧ s'.cnt 0 = 0 ∧ s'.dtor = .ub := by
  have ho : pairState.Owned := by
    intro o
    match o with
    | 0 => rfl
    | 1 => rfl
    | 2 => rfl
    | o + 3 => simp [pairState]
  refine ⟨ho, _, (C83_refuted_tuple pairState ho 0 2 [1] [] rfl (by simp [pairState]) (by
    intro y hy
    simp only [List.mem_cons, List.not_mem_nil, or_false] at hy
    rcases hy with rfl | rfl
    · exact ⟨by decide, by decide⟩
    · exact ⟨by decide, by decide⟩)).trans (if_pos (by simp [pairState])), ?_, ?_, ?_⟩
  · simp [pairState]
  · simp [pairState]
  · simp [pairState, dtor, destroy, ptr, dec]

end Feyn
