import Verif.Spec.Symmetry
import Mathlib.Data.List.Nodup
import Mathlib.Data.List.Perm.Subperm
import Mathlib.Data.Int.ModEq
import Mathlib.Tactic.Ring
import Mathlib.Tactic.Linarith

/-!
# Lemmas on the symmetry tables
-/

namespace Feyn

/-! ### Times -/

theorem mem_tauPairs {n : ℕ} {p : ℤ × ℤ} : p ∈ tauPairs n ↔ 0 ≤ p.1 ∧ p.1 ≤ p.2 ∧ p.2 < n := by
  obtain ⟨a, b⟩ := p
  simp only [tauPairs, List.mem_flatMap, List.mem_range, List.mem_map, List.mem_range'_1, Prod.mk.injEq]
  constructor
  · rintro ⟨x, hx, y, hy, rfl, rfl⟩
    omega
  · rintro ⟨h1, h2, h3⟩
    exact ⟨a.toNat, by omega, b.toNat, by omega, by omega, by omega⟩

theorem nodup_tauPairs (n : ℕ) : (tauPairs n).Nodup := by
  unfold tauPairs
  rw [List.nodup_flatMap]
  constructor
  · intro x _
    refine (List.nodup_range').map ?_
    intro a b h
    simpa using h
  · refine (List.nodup_range (n := n)).imp ?_
    intro a b hab
    simp only [Function.onFun, List.disjoint_left, List.mem_map, not_exists, not_and]
    rintro p ⟨y, _, rfl⟩ z _ e
    simp only [Prod.mk.injEq, Nat.cast_inj] at e
    exact hab e.1.symm

/-- What the first loop has written. -/
structure TauInv (l : List (ℤ × ℤ)) (s : TauTabs) : Prop where
  restore : s.restore = l
  index : s.index = l.length
  at_ : ∀ (i : ℕ) (p : ℤ × ℤ), l[i]? = some p → s.squeeze p.1 p.2 = i ∧ s.squeeze p.2 p.1 = i ∧
    s.sym p.1 p.2 = (if pyIs p.1 p.2 then 1 else 2) ∧ s.sym p.2 p.1 = (if pyIs p.1 p.2 then 1 else 2) ∧
    (p.1 ≠ p.2 → s.flag p.1 p.2 = 0) ∧ s.flag p.2 p.1 = (if pyIs p.1 p.2 then 0 else 1)
  rest : ∀ a b : ℤ, (a, b) ∉ l → (b, a) ∉ l → s.flag a b = 0

theorem pyIs_eq {a b : ℤ} (h : pyIs a b = true) : a = b := by
  simp only [pyIs, Bool.and_eq_true, decide_eq_true_eq] at h
  exact h.1

theorem tauInv_step {l : List (ℤ × ℤ)} {s : TauTabs} (h : TauInv l s) {p : ℤ × ℤ} (hp : p ∉ l) (hle : p.1 ≤ p.2) (hl : ∀ q ∈ l, q.1 ≤ q.2) :
    TauInv (l ++ [p]) (tauStep s p) := by
  obtain ⟨a, b⟩ := p
  have new : (b, a) ∉ l := fun c => by
    have := hl _ c
    simp only at this hle
    have : a = b := le_antisymm hle this
    subst this
    exact hp c
  have old : ∀ {c d : ℤ}, (c, d) ∈ l → ¬(c = a ∧ d = b) ∧ ¬(c = b ∧ d = a) ∧ ¬(d = a ∧ c = b) ∧ ¬(d = b ∧ c = a) := by
    intro c d hm
    refine ⟨?_, ?_, ?_, ?_⟩ <;> rintro ⟨rfl, rfl⟩
    · exact hp hm
    · exact new hm
    · exact new hm
    · exact hp hm
  constructor
  · unfold tauStep
    simp only
    split_ifs <;> simp [h.restore]
  · unfold tauStep
    simp only
    split_ifs <;> simp [h.index]
  · intro i q hq
    by_cases hi : i < l.length
    · rw [List.getElem?_append_left hi] at hq
      obtain ⟨c, d⟩ := q
      have hm : (c, d) ∈ l := List.mem_of_getElem? hq
      obtain ⟨o1, o2, o3, o4⟩ := old hm
      obtain ⟨k1, k2, k3, k4, k5, k6⟩ := h.at_ i _ hq
      simp only at k1 k2 k3 k4 k5 k6 ⊢
      unfold tauStep
      by_cases z : pyIs a b
      · have := pyIs_eq z
        subst this
        simp only [z, put, Bool.not_true, if_true, if_false, o1, o3, Bool.false_eq_true]
        exact ⟨k1, k2, k3, k4, k5, k6⟩
      · simp only [z, put, Bool.not_false, if_true, if_false, o1, o2, o3, o4, Bool.false_eq_true]
        exact ⟨k1, k2, k3, k4, k5, k6⟩
    · have : i = l.length := by
        have := List.getElem?_eq_some_iff.1 hq
        obtain ⟨w, _⟩ := this
        simp at w
        omega
      subst this
      rw [List.getElem?_append_right (le_refl _)] at hq
      simp at hq
      subst hq
      simp only
      have fl : s.flag a b = 0 := h.rest a b hp new
      have fl' : s.flag b a = 0 := h.rest b a new hp
      unfold tauStep
      by_cases z : pyIs a b
      · have := pyIs_eq z
        subst this
        simp [z, put, h.index, fl]
      · by_cases e : a = b
        · subst e
          simp [z, put, h.index]
        · have e' : ¬b = a := fun c => e c.symm
          simp [z, put, h.index, fl, e, e']
  · intro c d h1 h2
    simp only [List.mem_append, List.mem_singleton, not_or, Prod.mk.injEq] at h1 h2
    have := h.rest c d h1.1 h2.1
    unfold tauStep
    by_cases z : pyIs a b
    · simp [z, this]
    · have z2 : ¬(c = b ∧ d = a) := fun q => h2.2 ⟨q.2, q.1⟩
      simp [z, put, z2, this]

theorem tauInv_fold : ∀ (l : List (ℤ × ℤ)), l.Nodup → (∀ q ∈ l, q.1 ≤ q.2) →
    TauInv l (l.foldl tauStep ⟨fun _ _ => 0, fun _ _ => 0, fun _ _ => 0, [], 0⟩) := by
  intro l
  induction l using List.reverseRecOn with
  | nil =>
    intro _ _
    exact ⟨rfl, rfl, by simp, fun _ _ _ _ => rfl⟩
  | append_singleton l p ih =>
    intro hn hl
    rw [List.foldl_append]
    have hn' := List.nodup_append.1 hn
    exact tauInv_step (ih hn'.1 fun q hq => hl q (by simp [hq])) (fun c => hn'.2.2 p c p (by simp) rfl) (hl p (by simp)) fun q hq => hl q (by simp [hq])

theorem tauInv (n : ℕ) : TauInv (tauPairs n) (pyTauTabs n) := tauInv_fold _ (nodup_tauPairs n) fun _ hq => (mem_tauPairs.1 hq).2.1

/-! ### Pairs of sites -/

theorem mem_siteList {lx ly : ℕ} {q : Quad} : q ∈ siteList lx ly ↔ q.In lx ly := by
  obtain ⟨a, b, c, d⟩ := q
  simp only [siteList, List.mem_flatMap, List.mem_range, List.mem_map, Quad.mk.injEq, Quad.In]
  constructor
  · rintro ⟨x, hx, y, hy, z, hz, w, hw, rfl, rfl, rfl, rfl⟩
    omega
  · rintro ⟨h1, h2, h3, h4⟩
    exact ⟨a.toNat, by omega, b.toNat, by omega, c.toNat, by omega, d.toNat, by omega, by omega, by omega, by omega, by omega⟩

theorem nodup_siteList (lx ly : ℕ) : (siteList lx ly).Nodup := by
  have key : ∀ (n : ℕ) (f : ℕ → List Quad) (k : Quad → ℤ), (∀ i, (f i).Nodup) → (∀ i, ∀ q ∈ f i, k q = i) → ((List.range n).flatMap f).Nodup := by
    intro n f k h1 h2
    rw [List.nodup_flatMap]
    refine ⟨fun i _ => h1 i, (List.nodup_range (n := n)).imp ?_⟩
    intro a b hab
    simp only [Function.onFun, List.disjoint_left]
    intro q ha hb
    exact hab (by exact_mod_cast (h2 a q ha).symm.trans (h2 b q hb))
  unfold siteList
  refine key lx _ Quad.x1 (fun x1 => key ly _ Quad.y1 (fun y1 => key lx _ Quad.x2 (fun x2 => ?_) ?_) ?_) ?_
  · refine (List.nodup_range).map ?_
    intro a b h
    simpa using h
  · intro i q hq
    simp only [List.mem_map] at hq
    obtain ⟨_, _, rfl⟩ := hq
    rfl
  · intro i q hq
    simp only [List.mem_map, List.mem_flatMap] at hq
    obtain ⟨_, _, _, _, rfl⟩ := hq
    rfl
  · intro i q hq
    simp only [List.mem_map, List.mem_flatMap] at hq
    obtain ⟨_, _, _, _, _, _, rfl⟩ := hq
    rfl

theorem cell_eq (lx ly : ℤ) (q : Quad) : q.cell lx ly = (siteNum ly q.x1 q.y1, siteNum ly q.x2 q.y2) := by
  simp [Quad.cell, pyCoordiIndex, siteNum]

theorem siteNum_range {lx ly x y : ℤ} (hx : 0 ≤ x ∧ x < lx) (hy : 0 ≤ y ∧ y < ly) : 0 ≤ siteNum ly x y ∧ siteNum ly x y < lx * ly := by
  unfold siteNum
  constructor <;> nlinarith [hx.1, hx.2, hy.1, hy.2]

theorem siteNum_inj {ly x y x' y' : ℤ} (hy : 0 ≤ y ∧ y < ly) (hy' : 0 ≤ y' ∧ y' < ly) (h : siteNum ly x y = siteNum ly x' y') : x = x' ∧ y = y' := by
  unfold siteNum at h
  have : x = x' := by
    rcases lt_trichotomy x x' with c | c | c
    · nlinarith
    · exact c
    · nlinarith
  subst this
  exact ⟨rfl, by linarith⟩

theorem cell_inj {lx ly : ℤ} {p q : Quad} (hp : p.In lx ly) (hq : q.In lx ly) (h : p.cell lx ly = q.cell lx ly) : p = q := by
  rw [cell_eq, cell_eq, Prod.mk.injEq] at h
  obtain ⟨e1, e2⟩ := siteNum_inj hp.2.1 hq.2.1 h.1
  obtain ⟨e3, e4⟩ := siteNum_inj hp.2.2.2 hq.2.2.2 h.2
  cases p
  cases q
  simp_all

theorem npIndex_in {n i : ℤ} (h : 0 ≤ i ∧ i < n) : npIndex n i = some i := by simp [npIndex, h.1, h.2]

theorem getR_eq {r L : ℤ} (h1 : -(2 * L) ≤ r) (h2 : r < 3 * L) : pyGetR r L = r % L := by
  unfold pyGetR
  by_cases a : r < 0
  · rw [if_pos a]
    by_cases b : r + L < 0
    · rw [if_pos b, ← Int.add_mul_emod_self_left r L 2]
      rw [Int.emod_eq_of_lt (by linarith) (by linarith)]
      ring
    · rw [if_neg b, ← Int.add_emod_right]
      rw [Int.emod_eq_of_lt (by linarith) (by linarith)]
  · rw [if_neg a]
    by_cases b : r ≥ L
    · rw [if_pos b]
      by_cases c : r - L ≥ L
      · rw [if_pos c, ← Int.add_mul_emod_self_left r L (-2)]
        rw [Int.emod_eq_of_lt (by linarith) (by linarith)]
        ring
      · rw [if_neg c, ← Int.sub_emod_right]
        rw [Int.emod_eq_of_lt (by linarith) (by linarith)]
    · rw [if_neg b, Int.emod_eq_of_lt (by linarith) (by linarith)]

section
variable {sym : List String} {lx ly : ℕ} (hs : Proper sym lx ly)
include hs

theorem mirror_map {v : Quad} (hv : v.In lx ly) : pyMirror sym lx ly v = ((mirrors sym).map fun g => g.act lx ly v).dedup := by
  obtain ⟨hx, hy, ht⟩ := hs
  obtain ⟨⟨a1, a2⟩, ⟨b1, b2⟩, ⟨c1, c2⟩, d1, d2⟩ := hv
  have e : (⟨1, 0, 0, 1⟩ : Mat2).act lx ly v = v := by
    simp only [Mat2.act, one_mul, zero_mul, add_zero, zero_add]
    rw [Int.emod_eq_of_lt a1 a2, Int.emod_eq_of_lt b1 b2, Int.emod_eq_of_lt c1 c2, Int.emod_eq_of_lt d1 d2]
  unfold pyMirror mirrors
  by_cases t : "Triangular" ∈ sym
  · have := ht t
    subst this
    simp only [t, if_true, List.map_cons, List.map_nil, e]
    congr 1
    simp only [Mat2.act, one_mul, zero_mul, zero_add, neg_mul, Int.emod_eq_of_lt b1 b2, Int.emod_eq_of_lt d1 d2, add_zero]
    rw [getR_eq (by linarith) (by linarith), getR_eq (by linarith) (by linarith), getR_eq (by linarith) (by linarith), getR_eq (by linarith) (by linarith),
      getR_eq (by linarith) (by linarith), getR_eq (by linarith) (by linarith), getR_eq (by linarith) (by linarith), getR_eq (by linarith) (by linarith)]
    simp only [sub_eq_add_neg]
  · by_cases s : "Square" ∈ sym
    · simp only [t, s, if_true, if_false, List.map_cons, List.map_nil, e]
      congr 1
      simp only [Mat2.act, one_mul, zero_mul, zero_add, neg_mul, Int.emod_eq_of_lt b1 b2, Int.emod_eq_of_lt d1 d2, add_zero]
      rw [getR_eq (by linarith) (by linarith), getR_eq (by linarith) (by linarith), getR_eq (by linarith) (by linarith), getR_eq (by linarith) (by linarith),
        getR_eq (by linarith) (by linarith), getR_eq (by linarith) (by linarith)]
    · simp only [t, s, if_false, List.map_cons, List.map_nil, e]

theorem act_in (g : Mat2) (v : Quad) : (g.act lx ly v).In lx ly := by
  obtain ⟨hx, hy, _⟩ := hs
  have hx' : (0 : ℤ) < lx := by exact_mod_cast hx
  have hy' : (0 : ℤ) < ly := by exact_mod_cast hy
  exact ⟨⟨Int.emod_nonneg _ hx'.ne', Int.emod_lt_of_pos _ hx'⟩, ⟨Int.emod_nonneg _ hy'.ne', Int.emod_lt_of_pos _ hy'⟩,
    ⟨Int.emod_nonneg _ hx'.ne', Int.emod_lt_of_pos _ hx'⟩, ⟨Int.emod_nonneg _ hy'.ne', Int.emod_lt_of_pos _ hy'⟩⟩

theorem mem_mirror {v q : Quad} (hv : v.In lx ly) : q ∈ pyMirror sym lx ly v ↔ Mirrored sym lx ly v q := by
  rw [mirror_map hs hv, List.mem_dedup, List.mem_map]
  rfl

omit hs in
theorem mirror_nodup (v : Quad) : (pyMirror sym lx ly v).Nodup := List.nodup_dedup _

/-- Product of matrices. -/
def Mat2.mul (g h : Mat2) : Mat2 := ⟨g.a * h.a + g.b * h.c, g.a * h.b + g.b * h.d, g.c * h.a + g.d * h.c, g.c * h.b + g.d * h.d⟩

omit hs in
theorem mirrors_mul {g h : Mat2} (hg : g ∈ mirrors sym) (hh : h ∈ mirrors sym) : g.mul h ∈ mirrors sym := by
  have key : ∀ g ∈ mirrors sym, ∀ h ∈ mirrors sym, g.mul h ∈ mirrors sym := by
    unfold mirrors
    by_cases t : "Triangular" ∈ sym
    · simp only [t, if_true]
      decide
    · by_cases s : "Square" ∈ sym
      · simp only [t, s, if_true, if_false]
        decide
      · simp only [t, s, if_false]
        decide
  exact key g hg h hh

omit hs in
theorem mirrors_inv {g : Mat2} (hg : g ∈ mirrors sym) : g.mul g = ⟨1, 0, 0, 1⟩ := by
  unfold mirrors at *
  by_cases t : "Triangular" ∈ sym
  · simp only [t, if_true] at *
    revert g
    decide
  · by_cases s : "Square" ∈ sym
    · simp only [t, s, if_true, if_false] at *
      revert g
      decide
    · simp only [t, s, if_false] at *
      revert g
      decide

omit hs in
theorem mirrors_one : (⟨1, 0, 0, 1⟩ : Mat2) ∈ mirrors sym := by
  unfold mirrors
  split_ifs <;> simp

omit hs in
theorem emod_lin (a b c d x y L : ℤ) : (a * ((c * x + d * y) % L) + b) % L = (a * (c * x + d * y) + b) % L := by
  rw [Int.add_emod, Int.mul_emod, Int.emod_emod_of_dvd _ (dvd_refl L), ← Int.mul_emod, ← Int.add_emod]

theorem act_act {g h : Mat2} (hg : g ∈ mirrors sym) (v : Quad) : g.act lx ly (h.act lx ly v) = (g.mul h).act lx ly v := by
  have hc : g.c = 0 ∧ (g.b = 0 ∨ lx = ly) := by
    obtain ⟨_, _, ht⟩ := hs
    unfold mirrors at hg
    by_cases t : "Triangular" ∈ sym
    · simp only [t, if_true] at hg
      refine ⟨?_, Or.inr (ht t)⟩
      revert g
      decide
    · by_cases s : "Square" ∈ sym
      · simp only [t, s, if_true, if_false] at hg
        revert g
        simp only [List.mem_cons, List.not_mem_nil, or_false]
        rintro g (rfl | rfl | rfl | rfl) <;> simp
      · simp only [t, s, if_false, List.mem_singleton] at hg
        subst hg
        simp
  obtain ⟨c0, hb⟩ := hc
  have key : ∀ x y : ℤ, (g.a * ((h.a * x + h.b * y) % lx) + g.b * ((h.c * x + h.d * y) % ly)) % lx = ((g.mul h).a * x + (g.mul h).b * y) % (lx : ℤ) := by
    intro x y
    rw [emod_lin]
    rcases hb with hb | hb
    · congr 1
      simp only [Mat2.mul, hb]
      ring
    · rw [hb, add_comm, emod_lin]
      congr 1
      simp only [Mat2.mul]
      ring
  have key' : ∀ x y : ℤ, (g.c * ((h.a * x + h.b * y) % lx) + g.d * ((h.c * x + h.d * y) % ly)) % ly = ((g.mul h).c * x + (g.mul h).d * y) % (ly : ℤ) := by
    intro x y
    rw [add_comm, emod_lin]
    congr 1
    simp only [Mat2.mul, c0]
    ring
  simp only [Mat2.act, Quad.mk.injEq]
  exact ⟨key _ _, key' _ _, key _ _, key' _ _⟩

omit hs in
theorem one_act {v : Quad} (hv : v.In lx ly) : (⟨1, 0, 0, 1⟩ : Mat2).act lx ly v = v := by
  obtain ⟨⟨a1, a2⟩, ⟨b1, b2⟩, ⟨c1, c2⟩, d1, d2⟩ := hv
  simp only [Mat2.act, one_mul, zero_mul, add_zero, zero_add]
  rw [Int.emod_eq_of_lt a1 a2, Int.emod_eq_of_lt b1 b2, Int.emod_eq_of_lt c1 c2, Int.emod_eq_of_lt d1 d2]

omit hs in
theorem Mirrored.refl {v : Quad} (hv : v.In lx ly) : Mirrored sym lx ly v v := ⟨_, mirrors_one, one_act hv⟩

theorem Mirrored.right {v q : Quad} (h : Mirrored sym lx ly v q) : q.In lx ly := by
  obtain ⟨g, _, rfl⟩ := h
  exact act_in hs g v

theorem Mirrored.symm {v q : Quad} (hv : v.In lx ly) (h : Mirrored sym lx ly v q) : Mirrored sym lx ly q v := by
  obtain ⟨g, hg, rfl⟩ := h
  refine ⟨g, hg, ?_⟩
  rw [act_act hs hg, mirrors_inv hg, one_act hv]

theorem Mirrored.trans {u v w : Quad} (h1 : Mirrored sym lx ly u v) (h2 : Mirrored sym lx ly v w) : Mirrored sym lx ly u w := by
  obtain ⟨g, hg, rfl⟩ := h1
  obtain ⟨h, hh, rfl⟩ := h2
  exact ⟨h.mul g, mirrors_mul hh hg, (act_act hs hh _).symm⟩

theorem mirror_length {u v : Quad} (hu : u.In lx ly) (h : Mirrored sym lx ly u v) : (pyMirror sym lx ly u).length = (pyMirror sym lx ly v).length := by
  have hv := h.right hs
  refine List.Perm.length_eq ((List.perm_ext_iff_of_nodup (mirror_nodup u) (mirror_nodup v)).2 fun q => ?_)
  rw [mem_mirror hs hu, mem_mirror hs hv]
  exact ⟨fun k => (h.symm hs hu).trans hs k, fun k => h.trans hs k⟩

/-! ### The second loop -/

omit hs in
theorem fill_list (size : ℤ) : ∀ (l : List Quad) (s : RTabs), (∀ q ∈ l, q.In lx ly) →
    ∃ s' : RTabs, l.foldlM (rFill lx ly size) s = some s' ∧ s'.index = s.index ∧ s'.restore = s.restore ∧ (∀ q, q ∈ s'.points ↔ q ∈ l ∨ q ∈ s.points) ∧
      ∀ q : Quad, q.In lx ly → q.look ly s'.squeeze = (if q ∈ l then s.index else q.look ly s.squeeze) ∧ q.look ly s'.sym = (if q ∈ l then size else q.look ly s.sym) := by
  intro l
  induction l with
  | nil =>
    intro s _
    exact ⟨s, rfl, rfl, rfl, by simp, by simp⟩
  | cons p l ih =>
    intro s hl
    have hp := hl p (by simp)
    have r1 := siteNum_range (lx := lx) (ly := ly) hp.1 hp.2.1
    have r2 := siteNum_range (lx := lx) (ly := ly) hp.2.2.1 hp.2.2.2
    have e : rFill lx ly size s p = some { s with squeeze := put s.squeeze (siteNum ly p.x1 p.y1) (siteNum ly p.x2 p.y2) s.index, points := p :: s.points, sym := put s.sym (siteNum ly p.x1 p.y1) (siteNum ly p.x2 p.y2) size } := by
      unfold rFill
      rw [cell_eq, npIndex_in r1, npIndex_in r2]
      rfl
    obtain ⟨s', f1, f2, f3, f4, f5⟩ := ih { s with squeeze := put s.squeeze (siteNum ly p.x1 p.y1) (siteNum ly p.x2 p.y2) s.index, points := p :: s.points, sym := put s.sym (siteNum ly p.x1 p.y1) (siteNum ly p.x2 p.y2) size } (fun q hq => hl q (by simp [hq]))
    refine ⟨s', ?_, f2, f3, ?_, ?_⟩
    · rw [List.foldlM_cons, e]
      exact f1
    · intro q
      rw [f4]
      simp only [List.mem_cons]
      tauto
    · intro q hq
      obtain ⟨k1, k2⟩ := f5 q hq
      rw [k1, k2]
      have iff : (siteNum ly q.x1 q.y1 = siteNum ly p.x1 p.y1 ∧ siteNum ly q.x2 q.y2 = siteNum ly p.x2 p.y2) ↔ q = p := by
        constructor
        · intro h
          exact cell_inj (lx := lx) hq hp (by rw [cell_eq, cell_eq, h.1, h.2])
        · rintro rfl
          exact ⟨rfl, rfl⟩
      by_cases c : q ∈ l
      · simp [c]
      · by_cases d : q = p
        · simp [d, Quad.look, put]
        · simp only [c, if_false, Quad.look, put, iff, d, List.mem_cons, or_self]
          exact ⟨trivial, trivial⟩

/-- What the second loop has written. -/
structure RInv (sym : List String) (lx ly : ℕ) (done : List Quad) (s : RTabs) (reps : List Quad) : Prop where
  index : s.index = reps.length
  restore : s.restore = reps.map (Quad.cell lx ly)
  points : ∀ q, q ∈ s.points ↔ ∃ v ∈ done, Mirrored sym lx ly v q
  at_ : ∀ q ∈ s.points, ∃ (i : ℕ) (p : Quad), reps[i]? = some p ∧ Mirrored sym lx ly p q ∧ q.look ly s.squeeze = i ∧ q.look ly s.sym = (pyMirror sym lx ly q).length
  seen : ∀ p ∈ reps, p ∈ s.points
  apart : ∀ (i j : ℕ) (p q : Quad), reps[i]? = some p → reps[j]? = some q → Mirrored sym lx ly p q → i = j

omit hs in
theorem min_mem (l : List Quad) : ∀ v : Quad, l.foldl (fun m q => if q.lt m then q else m) v ∈ v :: l := by
  induction l with
  | nil => simp
  | cons p l ih =>
    intro v
    rw [List.foldl_cons]
    have := ih (if p.lt v then p else v)
    simp only [List.mem_cons] at *
    rcases this with c | c
    · rw [c]
      split_ifs <;> simp
    · tauto

theorem rInv_step {done : List Quad} {s : RTabs} {reps : List Quad} (h : RInv sym lx ly done s reps) {v : Quad} (hv : v.In lx ly) :
    ∃ s' reps', rStep sym lx ly s v = some s' ∧ RInv sym lx ly (done ++ [v]) s' reps' := by
  have pin : ∀ q ∈ s.points, q.In lx ly := by
    intro q hq
    obtain ⟨u, _, k⟩ := (h.points q).1 hq
    exact k.right hs
  unfold rStep
  by_cases c : v ∈ s.points
  · refine ⟨s, reps, by rw [if_pos c], h.index, h.restore, ?_, h.at_, h.seen, h.apart⟩
    intro q
    rw [h.points]
    constructor
    · rintro ⟨u, hu, k⟩
      exact ⟨u, by simp [hu], k⟩
    · rintro ⟨u, hu, k⟩
      simp only [List.mem_append, List.mem_singleton] at hu
      rcases hu with hu | rfl
      · exact ⟨u, hu, k⟩
      · obtain ⟨w, hw, kw⟩ := (h.points _).1 c
        exact ⟨w, hw, kw.trans hs k⟩
  · rw [if_neg c]
    have far : ∀ q ∈ s.points, ¬Mirrored sym lx ly v q := by
      intro q hq k
      obtain ⟨u, hu, ku⟩ := (h.points q).1 hq
      exact c ((h.points v).2 ⟨u, hu, ku.trans hs (k.symm hs hv)⟩)
    have hR : ∀ q ∈ pyMirror sym lx ly v, q.In lx ly := fun q hq => ((mem_mirror hs hv).1 hq).right hs
    obtain ⟨s', f1, f2, f3, f4, f5⟩ := fill_list (lx := lx) (ly := ly) (pyMirror sym lx ly v).length (pyMirror sym lx ly v) s hR
    generalize hm : (pyMirror sym lx ly v).foldl (fun m q => if q.lt m then q else m) v = m
    have mm : Mirrored sym lx ly v m := by
      have := min_mem (pyMirror sym lx ly v) v
      rw [hm, List.mem_cons] at this
      rcases this with e | e
      · rw [e]
        exact .refl hv
      · exact (mem_mirror hs hv).1 e
    refine ⟨{ s' with index := s'.index + 1, restore := s'.restore ++ [m.cell lx ly] }, reps ++ [m], ?_, ?_, ?_, ?_, ?_, ?_, ?_⟩
    · simp only [f1, hm]
      rfl
    · simp [f2, h.index]
    · simp [f3, h.restore]
    · intro q
      rw [f4, mem_mirror hs hv, h.points]
      simp only [List.mem_append, List.mem_singleton]
      constructor
      · rintro (k | ⟨u, hu, k⟩)
        · exact ⟨v, Or.inr rfl, k⟩
        · exact ⟨u, Or.inl hu, k⟩
      · rintro ⟨u, hu | rfl, k⟩
        · exact Or.inr ⟨u, hu, k⟩
        · exact Or.inl k
    · intro q hq
      have hq' := (f4 q).1 hq
      by_cases e : q ∈ pyMirror sym lx ly v
      · have kq := (mem_mirror hs hv).1 e
        obtain ⟨g1, g2⟩ := f5 q (hR q e)
        refine ⟨reps.length, m, by simp, (mm.symm hs hv).trans hs kq, ?_, ?_⟩
        · rw [g1, if_pos e, h.index]
        · rw [g2, if_pos e, mirror_length hs hv kq]
      · have hqs : q ∈ s.points := hq'.resolve_left e
        obtain ⟨i, p, k1, k2, k3, k4⟩ := h.at_ q hqs
        obtain ⟨g1, g2⟩ := f5 q (pin q hqs)
        have hi : i < reps.length := (List.getElem?_eq_some_iff.1 k1).1
        refine ⟨i, p, by rw [List.getElem?_append_left hi]; exact k1, k2, ?_, ?_⟩
        · rw [g1, if_neg e, k3]
        · rw [g2, if_neg e, k4]
    · intro p hp
      simp only [List.mem_append, List.mem_singleton] at hp
      rw [f4]
      rcases hp with hp | rfl
      · exact Or.inr (h.seen p hp)
      · exact Or.inl ((mem_mirror hs hv).2 mm)
    · intro i j p q hi hj k
      have lt : ∀ {i : ℕ} {p : Quad}, (reps ++ [m])[i]? = some p → (i < reps.length ∧ reps[i]? = some p) ∨ (i = reps.length ∧ p = m) := by
        intro i p hi
        by_cases c : i < reps.length
        · rw [List.getElem?_append_left c] at hi
          exact Or.inl ⟨c, hi⟩
        · have w := (List.getElem?_eq_some_iff.1 hi).1
          simp only [List.length_append, List.length_singleton] at w
          have : i = reps.length := by omega
          subst this
          simp at hi
          exact Or.inr ⟨rfl, hi.symm⟩
      rcases lt hi with ⟨a1, a2⟩ | ⟨a1, rfl⟩ <;> rcases lt hj with ⟨b1, b2⟩ | ⟨b1, rfl⟩
      · exact h.apart i j p q a2 b2 k
      · have hp := h.seen p (List.mem_of_getElem? a2)
        exact absurd (mm.trans hs (k.symm hs (pin p hp))) (far p hp)
      · have hq := h.seen q (List.mem_of_getElem? b2)
        exact absurd (mm.trans hs k) (far q hq)
      · rw [a1, b1]

theorem rInv_fold : ∀ (l done : List Quad) (s : RTabs) (reps : List Quad), (∀ v ∈ l, v.In lx ly) → RInv sym lx ly done s reps →
    ∃ s' reps', l.foldlM (rStep sym lx ly) s = some s' ∧ RInv sym lx ly (done ++ l) s' reps' := by
  intro l
  induction l with
  | nil =>
    intro done s reps _ h
    exact ⟨s, reps, rfl, by simpa using h⟩
  | cons v l ih =>
    intro done s reps hl h
    obtain ⟨s', reps', e, h'⟩ := rInv_step hs h (hl v (by simp))
    obtain ⟨s'', reps'', e', h''⟩ := ih (done ++ [v]) s' reps' (fun u hu => hl u (by simp [hu])) h'
    refine ⟨s'', reps'', ?_, by simpa using h''⟩
    rw [List.foldlM_cons, e]
    exact e'

theorem rInv : ∃ R reps, pyRTabs sym lx ly = some R ∧ RInv sym lx ly (siteList lx ly) R reps := by
  obtain ⟨s', reps', e, h⟩ := rInv_fold hs (siteList lx ly) [] ⟨fun _ _ => 0, fun _ _ => 0, [], [], 0⟩ [] (fun v hv => mem_siteList.1 hv)
    ⟨rfl, rfl, by simp, by simp, by simp, by simp⟩
  exact ⟨s', reps', e, by simpa using h⟩

end

end Feyn
