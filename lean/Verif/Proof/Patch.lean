import Verif.Proof.Load

/-!
# `FixDiagram` rebuilds the links from vertices to lines
-/

namespace Feyn

set_option linter.unusedSectionVars false

section
variable {Q F : Type} [Field Q] [LinearOrder Q] [Field F]

/-- Replace the links from vertices to lines. -/
def setSh (d : Diag Q F) (a : ℕ → Dir → ℕ) (b : ℕ → ℕ) (c : ℕ → Dir) : Diag Q F :=
  { d with sh := { d.sh with vG := a, vW := b, vDir := c } }

/-- Links to propagators after the first `i` of them. -/
def linkG (slot : ℕ → ℕ) (gV : ℕ → Dir → ℕ) (a : ℕ → Dir → ℕ) : ℕ → (ℕ → Dir → ℕ)
  | 0 => a
  | i + 1 => upd2 (upd2 (linkG slot gV a i) (gV (slot i) IN) OUT (slot i)) (gV (slot i) OUT) IN (slot i)

/-- Links to interactions after the first `i` of them. -/
def linkW (slot : ℕ → ℕ) (wV : ℕ → Dir → ℕ) (a : ℕ → ℕ) : ℕ → (ℕ → ℕ)
  | 0 => a
  | i + 1 => upd (upd (linkW slot wV a i) (wV (slot i) IN) (slot i)) (wV (slot i) OUT) (slot i)

/-- Directions of vertices after the first `i` interactions. -/
def linkD (slot : ℕ → ℕ) (wV : ℕ → Dir → ℕ) (a : ℕ → Dir) : ℕ → (ℕ → Dir)
  | 0 => a
  | i + 1 => upd (upd (linkD slot wV a i) (wV (slot i) IN) IN) (wV (slot i) OUT) OUT

theorem linkG_eq {slot : ℕ → ℕ} {gV : ℕ → Dir → ℕ} (a : ℕ → Dir → ℕ) {R : ℕ → Dir → ℕ} {n : ℕ}
    (hR : ∀ j < n, ∀ e, R (gV (slot j) e) (!e) = slot j) {i : ℕ} (hi : i ≤ n) :
    ∀ j < i, ∀ e, linkG slot gV a i (gV (slot j) e) (!e) = slot j := by
  induction i with
  | zero => intro j q; omega
  | succ i ih =>
    intro j q e
    have k := hR j (by omega) e
    have k1 := hR i (by omega) IN
    have k2 := hR i (by omega) OUT
    simp only [linkG, upd2_apply]
    split_ifs with c1 c2
    · rw [c1.1, c1.2] at k; exact k2.symm.trans k
    · rw [c2.1, c2.2] at k; exact k1.symm.trans k
    · by_cases c : j = i
      · subst c
        cases e
        · exact absurd ⟨rfl, rfl⟩ c2
        · exact absurd ⟨rfl, rfl⟩ c1
      · exact ih (by omega) j (by omega) e

theorem linkW_eq {slot : ℕ → ℕ} {wV : ℕ → Dir → ℕ} (a : ℕ → ℕ) {R : ℕ → ℕ} {n : ℕ}
    (hR : ∀ j < n, ∀ e, R (wV (slot j) e) = slot j) {i : ℕ} (hi : i ≤ n) :
    ∀ j < i, ∀ e, linkW slot wV a i (wV (slot j) e) = slot j := by
  induction i with
  | zero => intro j q; omega
  | succ i ih =>
    intro j q e
    have k := hR j (by omega) e
    have k1 := hR i (by omega) IN
    have k2 := hR i (by omega) OUT
    simp only [linkW, upd_apply]
    split_ifs with c1 c2
    · rw [c1] at k; exact k2.symm.trans k
    · rw [c2] at k; exact k1.symm.trans k
    · by_cases c : j = i
      · subst c
        cases e
        · exact absurd rfl c2
        · exact absurd rfl c1
      · exact ih (by omega) j (by omega) e

theorem linkD_eq {slot : ℕ → ℕ} {wV : ℕ → Dir → ℕ} (a : ℕ → Dir) {D : ℕ → Dir} {n : ℕ}
    (hD : ∀ j < n, ∀ e, D (wV (slot j) e) = e) {i : ℕ} (hi : i ≤ n) :
    ∀ j < i, ∀ e, linkD slot wV a i (wV (slot j) e) = e := by
  induction i with
  | zero => intro j q; omega
  | succ i ih =>
    intro j q e
    have k := hD j (by omega) e
    have k1 := hD i (by omega) IN
    have k2 := hD i (by omega) OUT
    simp only [linkD, upd_apply]
    split_ifs with c1 c2
    · rw [c1] at k; exact k2.symm.trans k
    · rw [c2] at k; exact k1.symm.trans k
    · by_cases c : j = i
      · subst c
        cases e
        · exact absurd rfl c2
        · exact absurd rfl c1
      · exact ih (by omega) j (by omega) e

theorem deref_cases (p : ℕ) : deref p = .ok () ∨ deref p = .ub := by
  unfold deref; split_ifs <;> simp

theorem fixG_patch {P : Params Q F} {y z : Diag Q F} {i : ℕ} (h : fixG P y i = .ok z) (a b c) :
    fixG P (setSh y a b c) i = .ok (setSh z (upd2 (upd2 a (y.sh.gV (y.G.slot i) IN) OUT (y.G.slot i))
      (y.sh.gV (y.G.slot i) OUT) IN (y.G.slot i)) b c) ∧ z.G = y.G ∧ z.sh.gV = y.sh.gV ∧ z.W = y.W ∧
      z.sh.wV = y.sh.wV := by
  unfold fixG at h ⊢
  cases e : y.G.get i with
  | ub => rw [e] at h; cases h
  | abort => rw [e] at h; cases h
  | ok g =>
    obtain ⟨-, rfl⟩ := Bundle.get_ok e
    rw [e, Res.ok_bind] at h
    have e' : (setSh y a b c).G.get i = .ok (y.G.slot i) := e
    rw [e', Res.ok_bind]
    dsimp only at h
    rcases deref_cases (y.G.slot i) with q | q <;> rw [q] at h <;> try cases h
    rcases deref_cases (y.sh.gV (y.G.slot i) IN) with q1 | q1 <;> rw [q1] at h <;> try cases h
    rcases deref_cases (y.sh.gV (y.G.slot i) OUT) with q2 | q2 <;> rw [q2] at h <;> try cases h
    have q1' : deref ((setSh y a b c).sh.gV (y.G.slot i) IN) = .ok () := q1
    have q2' : deref ((setSh y a b c).sh.gV (y.G.slot i) OUT) = .ok () := q2
    dsimp only
    rw [q, Res.ok_bind, q1', Res.ok_bind, q2', Res.ok_bind]
    exact ⟨rfl, rfl, rfl, rfl, rfl⟩

theorem fixW_patch {P : Params Q F} {y z : Diag Q F} {i : ℕ} (h : fixW P y i = .ok z) (a b c) :
    fixW P (setSh y a b c) i = .ok (setSh z a
      (upd (upd b (y.sh.wV (y.W.slot i) IN) (y.W.slot i)) (y.sh.wV (y.W.slot i) OUT) (y.W.slot i))
      (upd (upd c (y.sh.wV (y.W.slot i) IN) IN) (y.sh.wV (y.W.slot i) OUT) OUT)) ∧ z.W = y.W ∧ z.sh.wV = y.sh.wV := by
  unfold fixW at h ⊢
  cases e : y.W.get i with
  | ub => rw [e] at h; cases h
  | abort => rw [e] at h; cases h
  | ok g =>
    obtain ⟨-, rfl⟩ := Bundle.get_ok e
    rw [e, Res.ok_bind] at h
    have e' : (setSh y a b c).W.get i = .ok (y.W.slot i) := e
    rw [e', Res.ok_bind]
    dsimp only at h
    rcases deref_cases (y.W.slot i) with q | q <;> rw [q] at h <;> try cases h
    rcases deref_cases (y.sh.wV (y.W.slot i) IN) with q1 | q1 <;> rw [q1] at h <;> try cases h
    rcases deref_cases (y.sh.wV (y.W.slot i) OUT) with q2 | q2 <;> rw [q2] at h <;> try cases h
    have q1' : deref ((setSh y a b c).sh.wV (y.W.slot i) IN) = .ok () := q1
    have q2' : deref ((setSh y a b c).sh.wV (y.W.slot i) OUT) = .ok () := q2
    dsimp only
    rw [q, Res.ok_bind, q1', Res.ok_bind, q2', Res.ok_bind]
    exact ⟨rfl, rfl, rfl⟩

theorem loopG_patch {P : Params Q F} {y z : Diag Q F} {i : ℕ} (h : loopM (fixG P) y (List.range i) = .ok z) (a b c) :
    loopM (fixG P) (setSh y a b c) (List.range i) = .ok (setSh z (linkG y.G.slot y.sh.gV a i) b c) ∧
      z.G = y.G ∧ z.sh.gV = y.sh.gV ∧ z.W = y.W ∧ z.sh.wV = y.sh.wV := by
  induction i generalizing z with
  | zero => cases h; exact ⟨rfl, rfl, rfl, rfl, rfl⟩
  | succ i ih =>
    rw [List.range_succ, loopM_append] at h ⊢
    cases e : loopM (fixG P) y (List.range i) with
    | ub => rw [e] at h; cases h
    | abort => rw [e] at h; cases h
    | ok m =>
      obtain ⟨k1, k2, k3, k4, k5⟩ := ih e
      rw [e, Res.ok_bind] at h
      rw [k1, Res.ok_bind]
      simp only [loopM] at h ⊢
      cases e2 : fixG P m i with
      | ub => rw [e2] at h; cases h
      | abort => rw [e2] at h; cases h
      | ok m2 =>
        rw [e2] at h; cases h
        obtain ⟨l1, l2, l3, l4, l5⟩ := fixG_patch e2 (linkG y.G.slot y.sh.gV a i) b c
        rw [l1, k2, k3]
        exact ⟨rfl, l2.trans k2, l3.trans k3, l4.trans k4, l5.trans k5⟩

theorem loopW_patch {P : Params Q F} {y z : Diag Q F} {i : ℕ} (h : loopM (fixW P) y (List.range i) = .ok z) (a b c) :
    loopM (fixW P) (setSh y a b c) (List.range i) = .ok (setSh z a (linkW y.W.slot y.sh.wV b i)
      (linkD y.W.slot y.sh.wV c i)) ∧ z.W = y.W ∧ z.sh.wV = y.sh.wV := by
  induction i generalizing z with
  | zero => cases h; exact ⟨rfl, rfl, rfl⟩
  | succ i ih =>
    rw [List.range_succ, loopM_append] at h ⊢
    cases e : loopM (fixW P) y (List.range i) with
    | ub => rw [e] at h; cases h
    | abort => rw [e] at h; cases h
    | ok m =>
      obtain ⟨k1, k4, k5⟩ := ih e
      rw [e, Res.ok_bind] at h
      rw [k1, Res.ok_bind]
      simp only [loopM] at h ⊢
      cases e2 : fixW P m i with
      | ub => rw [e2] at h; cases h
      | abort => rw [e2] at h; cases h
      | ok m2 =>
        rw [e2] at h; cases h
        obtain ⟨l1, l4, l5⟩ := fixW_patch e2 a (linkW y.W.slot y.sh.wV b i) (linkD y.W.slot y.sh.wV c i)
        rw [l1, k4, k5]
        exact ⟨rfl, l4.trans k4, l5.trans k5⟩

theorem fixLines_patch {P : Params Q F} {y z : Diag Q F} (h : fixLines P y = .ok z) (a b c) :
    fixLines P (setSh y a b c) = .ok (setSh z (linkG y.G.slot y.sh.gV a y.G.avail)
      (linkW y.W.slot y.sh.wV b y.W.avail) (linkD y.W.slot y.sh.wV c y.W.avail)) := by
  unfold fixLines at h ⊢
  dsimp only at h ⊢
  cases e : loopM (fixG P) { y with weight := 1 } (List.range y.G.avail) with
  | ub => rw [e] at h; cases h
  | abort => rw [e] at h; cases h
  | ok m =>
    obtain ⟨k1, k2, k3, k4, k5⟩ := loopG_patch e a b c
    have k1' : loopM (fixG P) { setSh y a b c with weight := 1 } (List.range (setSh y a b c).G.avail) = _ := k1
    rw [e, Res.ok_bind] at h
    rw [k1', Res.ok_bind]
    cases e2 : loopM (fixW P) m (List.range m.W.avail) with
    | ub => rw [e2] at h; cases h
    | abort => rw [e2] at h; cases h
    | ok m2 =>
      rw [e2, Res.ok_bind] at h
      cases h
      obtain ⟨l1, l4, l5⟩ := loopW_patch e2 (linkG y.G.slot y.sh.gV a y.G.avail) b c
      have l1' : loopM (fixW P) (setSh m (linkG y.G.slot y.sh.gV a y.G.avail) b c)
        (List.range (setSh m (linkG y.G.slot y.sh.gV a y.G.avail) b c).W.avail) = _ := l1
      rw [l1', Res.ok_bind, k4, k5]
      rfl

theorem fixDiagram_patch {P : Params Q F} {y z : Diag Q F} (h : fixDiagram P y = .ok z) (a b c) :
    fixDiagram P (setSh y a b c) = .ok (setSh z (linkG y.G.slot y.sh.gV a y.G.avail)
      (linkW y.W.slot y.sh.wV b y.W.avail) (linkD y.W.slot y.sh.wV c y.W.avail)) := by
  unfold fixDiagram at h ⊢
  by_cases c0 : y.hasGamma ≠ 0
  · rw [if_pos c0] at h; cases h
  rw [if_neg c0] at h
  rw [if_neg (show ¬ (setSh y a b c).hasGamma ≠ 0 from c0)]
  by_cases c1 : y.worm.exist = true
  · rw [if_pos c1] at h
    rw [if_pos (show (setSh y a b c).worm.exist = true from c1)]
    rcases deref_cases y.worm.ira with q | q <;> rw [q] at h <;> try cases h
    rcases deref_cases y.worm.masha with q2 | q2 <;> rw [q2] at h <;> try cases h
    rw [show deref (setSh y a b c).worm.ira = .ok () from q, Res.ok_bind,
      show deref (setSh y a b c).worm.masha = .ok () from q2, Res.ok_bind]
    exact fixLines_patch h a b c
  · rw [if_neg c1] at h
    rw [if_neg (show ¬ (setSh y a b c).worm.exist = true from c1)]
    exact fixLines_patch h a b c

end
end Feyn
