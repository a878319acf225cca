import Mathlib.Tactic.Ring
import Mathlib.Data.Finset.Card
import Mathlib.Data.Finset.Image
import Verif.Spec.Bundle

/-! # Lemmas about the container -/

namespace Feyn
namespace Bundle

theorem mem_live {b : Bundle} {p : ℕ} : p ∈ b.live ↔ p < MAX_BUNDLE ∧ b.name p < b.avail := by
  simp [live]

theorem live_lt {b : Bundle} {p : ℕ} (h : p ∈ b.live) : p < MAX_BUNDLE := (mem_live.1 h).1

theorem wf_init : init.Wf := by constructor <;> simp [init]

theorem live_init : init.live = ∅ := by
  ext p; simp [mem_live, init]

theorem card_live {b : Bundle} (h : b.Wf) : b.live.card = b.avail := by
  have : b.live = (Finset.range b.avail).image b.slot := by
    ext p
    simp only [mem_live, Finset.mem_image, Finset.mem_range]
    constructor
    · rintro ⟨h1, h2⟩
      exact ⟨b.name p, h2, h.slot_name p h1⟩
    · rintro ⟨i, hi, rfl⟩
      have := h.avail_le
      have hi' : i < MAX_BUNDLE := by omega
      exact ⟨h.slot_lt i hi', by rw [h.name_slot i hi']; exact hi⟩
  rw [this, Finset.card_image_of_injOn, Finset.card_range]
  intro i hi j hj hij
  simp only [Finset.coe_range, Set.mem_Iio] at hi hj
  have := h.avail_le
  have h1 := h.name_slot i (by omega)
  have h2 := h.name_slot j (by omega)
  rw [← h1, ← h2]; exact congrArg _ hij

/-- `slot` enumerates the live cells without repetition. -/
theorem live_eq_image {b : Bundle} (h : b.Wf) : b.live = (Finset.range b.avail).image b.slot := by
  ext p
  simp only [mem_live, Finset.mem_image, Finset.mem_range]
  constructor
  · rintro ⟨h1, h2⟩
    exact ⟨b.name p, h2, h.slot_name p h1⟩
  · rintro ⟨i, hi, rfl⟩
    have := h.avail_le
    have hi' : i < MAX_BUNDLE := by omega
    exact ⟨h.slot_lt i hi', by rw [h.name_slot i hi']; exact hi⟩

theorem slot_mem_live {b : Bundle} (h : b.Wf) {i : ℕ} (hi : i < b.avail) : b.slot i ∈ b.live := by
  rw [live_eq_image h]
  exact Finset.mem_image.2 ⟨i, Finset.mem_range.2 hi, rfl⟩

theorem slot_inj {b : Bundle} (h : b.Wf) {i j : ℕ} (hi : i < b.avail) (hj : j < b.avail)
    (hij : b.slot i = b.slot j) : i = j := by
  have := h.avail_le
  have h1 := h.name_slot i (by omega)
  have h2 := h.name_slot j (by omega)
  rw [← h1, ← h2, hij]

theorem name_inj {b : Bundle} (h : b.Wf) {p q : ℕ} (hp : p < MAX_BUNDLE) (hq : q < MAX_BUNDLE)
    (hpq : b.name p = b.name q) : p = q := by
  have h1 := h.slot_name p hp
  have h2 := h.slot_name q hq
  rw [← h1, ← h2, hpq]

/-- Below capacity `add` succeeds, returns a fresh cell and inserts it. -/
theorem add_spec {b : Bundle} (h : b.Wf) (hlt : b.avail < MAX_BUNDLE) :
    ∃ p b', b.add = .ok (p, b') ∧ b'.Wf ∧ p < MAX_BUNDLE ∧ p ∉ b.live ∧ b'.live = insert p b.live ∧
      b'.avail = b.avail + 1 ∧ b'.name p = b.avail ∧ (∀ q, b'.name q = b.name q) ∧
      (∀ i, b'.slot i = b.slot i) := by
  have hs := h.slot_lt _ hlt
  have hn := h.name_slot _ hlt
  have hname : ∀ q, upd b.name (b.slot b.avail) b.avail q = b.name q := by
    intro q; unfold upd; split
    · next e => rw [e, hn]
    · rfl
  refine ⟨b.slot b.avail, { b with name := upd b.name (b.slot b.avail) b.avail, avail := b.avail + 1 },
    ?_, ?_, hs, ?_, ?_, rfl, ?_, hname, fun _ => rfl⟩
  · have : ¬ b.avail > MAX_BUNDLE := by omega
    simp [add, this, hlt, hs]
  · constructor
    · exact hlt
    · exact h.slot_lt
    · intro p hp; simp only [hname]; exact h.name_lt p hp
    · intro p hp; simp only [hname]; exact h.name_slot p hp
    · intro p hp; simp only [hname]; exact h.slot_name p hp
  · simp [mem_live, hn]
  · ext q
    simp only [mem_live, Finset.mem_insert, hname]
    constructor
    · rintro ⟨h1, h2⟩
      by_cases e : b.name q = b.avail
      · left; rw [← h.slot_name q h1, e]
      · right; exact ⟨h1, by omega⟩
    · rintro (rfl | ⟨h1, h2⟩)
      · exact ⟨hs, by omega⟩
      · exact ⟨h1, by omega⟩
  · simp only [hname]; exact hn

/-- Removing a live cell succeeds and erases exactly that cell. -/
theorem remove_spec {b : Bundle} (h : b.Wf) {p : ℕ} (hp : p ∈ b.live) :
    ∃ b', b.remove p = .ok b' ∧ b'.Wf ∧ b'.live = b.live.erase p ∧ b'.avail = b.avail - 1 := by
  obtain ⟨h1, h2⟩ := mem_live.1 hp
  have ha := h.avail_le
  have hne : p ≠ NULL := by omega
  have hlast := h.slot_lt (b.avail - 1) (by omega)
  have hnl := h.name_slot (b.avail - 1) (by omega)
  have hnm := h.name_lt p h1
  have hsp := h.slot_name p h1
  have hname : ∀ q, q < MAX_BUNDLE → upd (upd b.name p (b.avail - 1)) (b.slot (b.avail - 1)) (b.name p) q =
      if q = b.slot (b.avail - 1) then b.name p else if q = p then b.avail - 1 else b.name q := by
    intro q _; simp only [upd_apply]
  have hslot : ∀ i, upd (upd b.slot (b.name p) (b.slot (b.avail - 1))) (b.avail - 1) p i =
      if i = b.avail - 1 then p else if i = b.name p then b.slot (b.avail - 1) else b.slot i := by
    intro q; simp only [upd_apply]
  refine ⟨{ slot := upd (upd b.slot (b.name p) (b.slot (b.avail - 1))) (b.avail - 1) p
            name := upd (upd b.name p (b.avail - 1)) (b.slot (b.avail - 1)) (b.name p)
            avail := b.avail - 1 }, ?_, ?_, ?_, rfl⟩
  · have e0 : b.avail ≠ 0 := by omega
    have e1 : b.avail - 1 < MAX_BUNDLE := by omega
    simp [remove, exist, hne, h1, h2, e0, hlast, e1, hnm]
  · constructor
    · show b.avail - 1 ≤ MAX_BUNDLE; omega
    · intro i hi; simp only [hslot]; split
      · exact h1
      · split
        · exact hlast
        · exact h.slot_lt i hi
    · intro q hq; simp only [hname q hq]; split
      · exact hnm
      · split
        · omega
        · exact h.name_lt q hq
    · intro i hi
      have := h.slot_lt i hi
      have hns := h.name_slot i hi
      simp only [hslot, upd_apply]
      by_cases e1 : i = b.avail - 1
      · subst e1
        simp only [if_true]
        split
        · next e => rw [e, hnl]
        · rfl
      · simp only [e1, if_false]
        by_cases e2 : i = b.name p
        · simp [e2]
        · simp only [e2, if_false]
          have n1 : b.slot i ≠ b.slot (b.avail - 1) := by
            intro e; apply e1; rw [← hns, e, hnl]
          have n2 : b.slot i ≠ p := by
            intro e; apply e2; rw [← hns, e]
          simp [n1, n2, hns]
    · intro q hq
      have hsn := h.slot_name q hq
      simp only [hslot, upd_apply]
      by_cases e1 : q = b.slot (b.avail - 1)
      · subst e1
        simp only [if_true]
        split
        · next e => rw [← hsp, e]
        · rfl
      · simp only [e1, if_false]
        by_cases e2 : q = p
        · simp [e2]
        · simp only [e2, if_false]
          have n1 : b.name q ≠ b.avail - 1 := by
            intro e; apply e1; rw [← hsn, e]
          have n2 : b.name q ≠ b.name p := by
            intro e; apply e2; rw [← hsn, e, hsp]
          simp [n1, n2, hsn]
  · ext q
    simp only [mem_live, Finset.mem_erase]
    constructor
    · rintro ⟨hq, h3⟩
      simp only [hname q hq] at h3
      by_cases e1 : q = b.slot (b.avail - 1)
      · simp only [e1, if_true] at h3
        have : b.name q = b.avail - 1 := by rw [e1, hnl]
        refine ⟨?_, hq, by omega⟩
        intro e; rw [e] at this; omega
      · simp only [e1, if_false] at h3
        by_cases e2 : q = p
        · simp [e2] at h3
        · simp only [e2, if_false] at h3
          exact ⟨e2, hq, by omega⟩
    · rintro ⟨e2, hq, h3⟩
      refine ⟨hq, ?_⟩
      simp only [hname q hq]
      by_cases e1 : q = b.slot (b.avail - 1)
      · simp only [e1, if_true]
        have h4 : b.name q = b.avail - 1 := by rw [e1, hnl]
        have : b.name p ≠ b.name q := fun e => e2 (name_inj h hq h1 e.symm)
        omega
      · simp only [e1, if_false, e2]
        have : b.name q ≠ b.avail - 1 := by
          intro e; apply e1; rw [← e, h.slot_name q hq]
        omega

/-- Removing by number is removing the cell with that number. -/
theorem removeName_eq {b : Bundle} (h : b.Wf) {i : ℕ} (hi : i < b.avail) :
    b.removeName i = b.remove (b.slot i) := by
  have ha := h.avail_le
  have hs := h.slot_lt i (by omega)
  have hn := h.name_slot i (by omega)
  have hne : b.slot i ≠ NULL := by omega
  have e0 : b.avail ≠ 0 := by omega
  have hlast := h.slot_lt (b.avail - 1) (by omega)
  have e1 : b.avail - 1 < MAX_BUNDLE := by omega
  have e2 : i < MAX_BUNDLE := by omega
  simp [removeName, remove, exist, hne, hs, hn, hi, e0, hlast, e1, e2]

/-- Picking from a non-empty container returns a live cell. -/
theorem pick_spec {b : Bundle} (h : b.Wf) (hpos : 0 < b.avail) (w : Word) :
    ∃ p, b.pick w = .ok p ∧ p ∈ b.live := by
  have ha := h.avail_le
  have hlt : (w.val : ℤ) % (b.avail : ℤ) < b.avail := Int.emod_lt_of_pos _ (by omega)
  have hge : 0 ≤ (w.val : ℤ) % (b.avail : ℤ) := Int.emod_nonneg _ (by omega)
  set i := (w.val : ℤ) % (b.avail : ℤ) with hi
  have h1 : i.toNat < b.avail := by omega
  refine ⟨b.slot i.toNat, ?_, slot_mem_live h h1⟩
  have e : ¬ ((b.avail : ℤ) ≤ 0) := by omega
  have e2 : (b.avail : ℤ) - 1 - 0 + 1 = b.avail := by ring
  have e3 : i.toNat < MAX_BUNDLE := by omega
  simp only [pick, irn, e2, if_neg e, Res.ok_bind, add_zero, ← hi, if_pos e3]

theorem get_spec {b : Bundle} (h : b.Wf) {i : ℕ} (hi : i < b.avail) : b.get i = .ok (b.slot i) := by
  have ha := h.avail_le
  have e1 : ¬ i ≥ b.avail := by omega
  have e2 : i < MAX_BUNDLE := by omega
  simp [get, e1, e2]

end Bundle
end Feyn
