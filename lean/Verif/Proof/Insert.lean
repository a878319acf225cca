import Verif.Proof.Reconnect

/-!
# Adding an interaction line next to the worm ends
-/

set_option linter.unusedSectionVars false
set_option linter.unusedSimpArgs false

namespace Feyn

/-- The connections after the insertion of a line between `i` and `m`. -/
def insShape (s : Shape) (dir dirW : Dir) (i m vA vB gA gB w : ℕ) : Shape where
  vG := upd2 (upd2 (upd2 (upd2 (upd2 (upd2 s.vG vA dir (s.vG i dir)) vA (!dir) gA) vB dir (s.vG m dir))
          vB (!dir) gB) i dir gA) m dir gB
  vW := upd (upd s.vW vA w) vB w
  vDir := upd (upd s.vDir vA dirW) vB (!dirW)
  gV := upd2 (upd2 (upd2 (upd2 (upd2 (upd2 s.gV gA (!dir) i) gA dir vA) gB (!dir) m)
          gB dir vB) (s.vG i dir) (!dir) vA) (s.vG m dir) (!dir) vB
  wV := upd2 (upd2 s.wV w dirW vA) w (!dirW) vB

section
variable {V G W : Finset ℕ} {s : Shape} {dir dirW : Dir} {i m vA vB gA gB w : ℕ}

theorem ins_topo (h : TopoOk V G W s) (hi : i ∈ V) (hm : m ∈ V) (hne : i ≠ m) (hA : vA ∉ V) (hB : vB ∉ V)
    (hAB : vA ≠ vB) (hgA : gA ∉ G) (hgB : gB ∉ G) (hgAB : gA ≠ gB) (hw : w ∉ W) :
    TopoOk (insert vB (insert vA V)) (insert gB (insert gA G)) (insert w W)
      (insShape s dir dirW i m vA vB gA gB w) := by
  have hgne := h.gV_ne_of_ne hi hm hne dir
  have h1 := h.gV_mem
  have h2 := h.vG_gV
  have h3 := h.vG_mem
  have h4 := h.gV_vG
  have h5 := h.wV_mem
  have h6 := h.vW_wV
  have h7 := h.vDir_wV
  have h8 := h.vW_mem
  have h9 := h.wV_vW
  constructor
  · intro g hg e
    simp only [insShape, upd2_apply, Finset.mem_insert] at *
    cases dir <;> cases e <;> simp at * <;> grind
  · intro g hg e
    simp only [insShape, upd2_apply, Finset.mem_insert] at *
    cases dir <;> cases e <;> simp at * <;> grind
  · intro g hg e
    simp only [insShape, upd2_apply, Finset.mem_insert] at *
    cases dir <;> cases e <;> simp at * <;> grind
  · intro g hg e
    simp only [insShape, upd2_apply, Finset.mem_insert] at *
    cases dir <;> cases e <;> simp at * <;> grind
  · intro g hg e
    simp only [insShape, upd2_apply, Finset.mem_insert] at *
    cases dirW <;> cases e <;> simp at * <;> grind
  · intro g hg e
    simp only [insShape, upd2_apply, upd_apply, Finset.mem_insert] at *
    cases dirW <;> cases e <;> simp at * <;> grind
  · intro g hg e
    simp only [insShape, upd2_apply, upd_apply, Finset.mem_insert] at *
    cases dirW <;> cases e <;> simp at * <;> grind
  · intro g hg
    simp only [insShape, upd2_apply, upd_apply, Finset.mem_insert] at *
    grind
  · intro v hv
    simp only [Finset.mem_insert] at hv
    rcases hv with rfl | rfl | hv
    · cases dirW <;> simp [insShape, upd2_apply, upd_apply, hAB.symm]
    · cases dirW <;> simp [insShape, upd2_apply, upd_apply, hAB]
    · have n1 : v ≠ vA := fun e => hA (e ▸ hv)
      have n2 : v ≠ vB := fun e => hB (e ▸ hv)
      have n3 : s.vW v ≠ w := fun e => hw (e ▸ h8 v hv)
      simp [insShape, upd2_apply, upd_apply, n1, n2, n3, h9 v hv]

/-- Names involved in an insertion. -/
structure InsHyp (V G W : Finset ℕ) (s : Shape) (i m vA vB gA gB w : ℕ) : Prop where
  topo : TopoOk V G W s
  hi : i ∈ V
  hm : m ∈ V
  hne : i ≠ m
  hA : vA ∉ V
  hB : vB ∉ V
  hAB : vA ≠ vB
  hgA : gA ∉ G
  hgB : gB ∉ G
  hgAB : gA ≠ gB
  hw : w ∉ W

namespace InsHyp
variable (H : InsHyp V G W s i m vA vB gA gB w)
include H

theorem iG (dir : Dir) : s.vG i dir ∈ G := H.topo.vG_mem _ H.hi dir
theorem mG (dir : Dir) : s.vG m dir ∈ G := H.topo.vG_mem _ H.hm dir
theorem gne (dir : Dir) : s.vG i dir ≠ s.vG m dir := H.topo.gV_ne_of_ne H.hi H.hm H.hne dir
theorem neV {x y : ℕ} (hx : x ∉ V) (hy : y ∈ V) : x ≠ y := fun e => hx (e ▸ hy)
theorem neG {x y : ℕ} (hx : x ∉ G) (hy : y ∈ G) : x ≠ y := fun e => hx (e ▸ hy)

local notation "S'" => insShape s dir dirW i m vA vB gA gB w

theorem gA_i : (S').gV gA (!dir) = i := by
  have := H.neG H.hgA (H.iG dir); have := H.neG H.hgA (H.mG dir)
  simp [insShape, upd2_apply, H.hgAB, *]
theorem gA_A : (S').gV gA dir = vA := by
  have := H.neG H.hgA (H.iG dir); have := H.neG H.hgA (H.mG dir)
  simp [insShape, upd2_apply, H.hgAB, *]
theorem gB_m : (S').gV gB (!dir) = m := by
  have := H.neG H.hgB (H.iG dir); have := H.neG H.hgB (H.mG dir)
  simp [insShape, upd2_apply, H.hgAB.symm, *]
theorem gB_B : (S').gV gB dir = vB := by
  have := H.neG H.hgB (H.iG dir); have := H.neG H.hgB (H.mG dir)
  simp [insShape, upd2_apply, H.hgAB.symm, *]
theorem gI_A : (S').gV (s.vG i dir) (!dir) = vA := by
  have := (H.neG H.hgA (H.iG dir)).symm; have := (H.neG H.hgB (H.iG dir)).symm
  have := H.gne dir
  simp [insShape, upd2_apply, *]
theorem gI_C : (S').gV (s.vG i dir) dir = s.gV (s.vG i dir) dir := by
  have := (H.neG H.hgA (H.iG dir)).symm; have := (H.neG H.hgB (H.iG dir)).symm
  have := H.gne dir
  simp [insShape, upd2_apply, *]
theorem gM_B : (S').gV (s.vG m dir) (!dir) = vB := by
  simp [insShape, upd2_apply]
theorem gM_D : (S').gV (s.vG m dir) dir = s.gV (s.vG m dir) dir := by
  have := (H.neG H.hgA (H.mG dir)).symm; have := (H.neG H.hgB (H.mG dir)).symm
  simp [insShape, upd2_apply, *]
theorem g_other {g : ℕ} (n1 : g ≠ gA) (n2 : g ≠ gB) (n3 : g ≠ s.vG i dir) (n4 : g ≠ s.vG m dir) :
    (S').gV g = s.gV g := by
  funext e; simp [insShape, upd2_apply, *]
theorem vA_d : (S').vG vA dir = s.vG i dir := by
  have := H.neV H.hA H.hi; have := H.neV H.hA H.hm
  simp [insShape, upd2_apply, H.hAB, *]
theorem vA_n : (S').vG vA (!dir) = gA := by
  have := H.neV H.hA H.hi; have := H.neV H.hA H.hm
  simp [insShape, upd2_apply, H.hAB, *]
theorem vB_d : (S').vG vB dir = s.vG m dir := by
  have := H.neV H.hB H.hi; have := H.neV H.hB H.hm
  simp [insShape, upd2_apply, H.hAB.symm, *]
theorem vB_n : (S').vG vB (!dir) = gB := by
  have := H.neV H.hB H.hi; have := H.neV H.hB H.hm
  simp [insShape, upd2_apply, H.hAB.symm, *]
theorem i_d : (S').vG i dir = gA := by
  have := H.hne
  simp [insShape, upd2_apply, *]
theorem i_n : (S').vG i (!dir) = s.vG i (!dir) := by
  have := (H.neV H.hA H.hi).symm; have := (H.neV H.hB H.hi).symm
  simp [insShape, upd2_apply, *]
theorem m_d : (S').vG m dir = gB := by
  simp [insShape, upd2_apply]
theorem m_n : (S').vG m (!dir) = s.vG m (!dir) := by
  have := (H.neV H.hA H.hm).symm; have := (H.neV H.hB H.hm).symm
  simp [insShape, upd2_apply, *]
theorem v_other {v : ℕ} (n1 : v ≠ vA) (n2 : v ≠ vB) (n3 : v ≠ i) (n4 : v ≠ m) : (S').vG v = s.vG v := by
  funext e; simp [insShape, upd2_apply, *]
theorem w_A : (S').wV w dirW = vA := by simp [insShape, upd2_apply]
theorem w_B : (S').wV w (!dirW) = vB := by simp [insShape, upd2_apply]
theorem w_other {x : ℕ} (n : x ≠ w) : (S').wV x = s.wV x := by
  funext e; simp [insShape, upd2_apply, *]
theorem vA_w : (S').vW vA = w := by simp [insShape, upd_apply]
theorem vB_w : (S').vW vB = w := by simp [insShape, upd_apply]
theorem v_w {v : ℕ} (n1 : v ≠ vA) (n2 : v ≠ vB) : (S').vW v = s.vW v := by simp [insShape, upd_apply, *]
theorem vA_dir : (S').vDir vA = dirW := by simp [insShape, upd_apply, H.hAB]
theorem vB_dir : (S').vDir vB = !dirW := by simp [insShape, upd_apply]
theorem v_dir {v : ℕ} (n1 : v ≠ vA) (n2 : v ≠ vB) : (S').vDir v = s.vDir v := by simp [insShape, upd_apply, *]

theorem topo' : TopoOk (insert vB (insert vA V)) (insert gB (insert gA G)) (insert w W) (S') :=
  ins_topo H.topo H.hi H.hm H.hne H.hA H.hB H.hAB H.hgA H.hgB H.hgAB H.hw

theorem next_eq_i {v : ℕ} (hv : v ∈ V) : nextVertex s v = i ↔ s.vG v OUT = s.vG i IN := by
  constructor
  · intro e
    have := H.topo.vG_gV _ (H.topo.vG_mem v hv OUT) OUT
    unfold nextVertex at e; rw [e] at this; exact this.symm
  · intro e; unfold nextVertex; rw [e]; exact H.topo.gV_vG _ H.hi IN

theorem next_eq_m {v : ℕ} (hv : v ∈ V) : nextVertex s v = m ↔ s.vG v OUT = s.vG m IN := by
  constructor
  · intro e
    have := H.topo.vG_gV _ (H.topo.vG_mem v hv OUT) OUT
    unfold nextVertex at e; rw [e] at this; exact this.symm
  · intro e; unfold nextVertex; rw [e]; exact H.topo.gV_vG _ H.hm IN

theorem sign' (hlt : ∀ v ∈ insert vB (insert vA V), v < MAX_BUNDLE) {sfl : ℤ} (hs : SignOk V s sfl) :
    SignOk (insert vB (insert vA V)) (S') sfl := by
  obtain ⟨σ, hσ, hsgn⟩ := hs
  have li := hlt i (by simp [H.hi])
  have lm := hlt m (by simp [H.hm])
  have lA := hlt vA (by simp)
  have lB := hlt vB (by simp)
  have nAi := H.neV H.hA H.hi
  have nAm := H.neV H.hA H.hm
  have nBi := H.neV H.hB H.hi
  have nBm := H.neV H.hB H.hm
  have nim := H.hne
  have nAB := H.hAB
  have sA : σ ⟨vA, lA⟩ = ⟨vA, lA⟩ := (hσ ⟨vA, lA⟩).2 H.hA
  have sB : σ ⟨vB, lB⟩ = ⟨vB, lB⟩ := (hσ ⟨vB, lB⟩).2 H.hB
  have hcase : ∀ x : Fin 20, x.val ∈ insert vB (insert vA V) →
      x = ⟨vA, lA⟩ ∨ x = ⟨vB, lB⟩ ∨ (x.val ∈ V ∧ x ≠ ⟨vA, lA⟩ ∧ x ≠ ⟨vB, lB⟩) := by
    intro x hx
    simp only [Finset.mem_insert] at hx
    rcases hx with e | e | e
    · right; left; exact Fin.ext e
    · left; exact Fin.ext e
    · right; right
      exact ⟨e, fun c => H.hA (by rw [c] at e; exact e), fun c => H.hB (by rw [c] at e; exact e)⟩
  have w1 : Equiv.swap (⟨m, lm⟩ : Fin 20) ⟨vB, lB⟩ ⟨vA, lA⟩ = ⟨vA, lA⟩ :=
    Equiv.swap_apply_of_ne_of_ne (by simpa using nAm) (by simpa using nAB)
  have w2 : Equiv.swap (⟨i, li⟩ : Fin 20) ⟨vA, lA⟩ ⟨m, lm⟩ = ⟨m, lm⟩ :=
    Equiv.swap_apply_of_ne_of_ne (by simpa using nim.symm) (by simpa using nAm.symm)
  have w3 : Equiv.swap (⟨i, li⟩ : Fin 20) ⟨vA, lA⟩ ⟨vB, lB⟩ = ⟨vB, lB⟩ :=
    Equiv.swap_apply_of_ne_of_ne (by simpa using nBi) (by simpa using nAB.symm)
  have w4 : Equiv.swap (⟨m, lm⟩ : Fin 20) ⟨vB, lB⟩ ⟨i, li⟩ = ⟨i, li⟩ :=
    Equiv.swap_apply_of_ne_of_ne (by simpa using nim) (by simpa using nBi.symm)
  have w5 : ∀ x : Fin 20, x.val ∉ insert vB (insert vA V) → Equiv.swap (⟨m, lm⟩ : Fin 20) ⟨vB, lB⟩ x = x ∧
      Equiv.swap (⟨i, li⟩ : Fin 20) ⟨vA, lA⟩ x = x := by
    intro x hx
    simp only [Finset.mem_insert, not_or] at hx
    exact ⟨Equiv.swap_apply_of_ne_of_ne (by rintro rfl; exact hx.2.2 H.hm) (by rintro rfl; exact hx.1 rfl),
      Equiv.swap_apply_of_ne_of_ne (by rintro rfl; exact hx.2.2 H.hi) (by rintro rfl; exact hx.2.1 rfl)⟩
  cases dir with
  | true =>
    refine ⟨σ * Equiv.swap ⟨i, li⟩ ⟨vA, lA⟩ * Equiv.swap ⟨m, lm⟩ ⟨vB, lB⟩, ?_, ?_⟩
    · intro x
      refine ⟨fun hx => ?_, fun hx => ?_⟩
      · rcases hcase x hx with rfl | rfl | ⟨hV, n1, n2⟩
        · rw [Equiv.Perm.mul_apply, Equiv.Perm.mul_apply, w1, Equiv.swap_apply_right, (hσ ⟨i, li⟩).1 H.hi]
          have a := H.vA_d (dir := true) (dirW := dirW)
          have b := H.gI_C (dir := true) (dirW := dirW)
          simp only [nextVertex]; rw [a, b]
        · rw [Equiv.Perm.mul_apply, Equiv.Perm.mul_apply, Equiv.swap_apply_right, w2, (hσ ⟨m, lm⟩).1 H.hm]
          have a := H.vB_d (dir := true) (dirW := dirW)
          have b := H.gM_D (dir := true) (dirW := dirW)
          simp only [nextVertex]; rw [a, b]
        · by_cases c1 : x = ⟨m, lm⟩
          · subst c1
            rw [Equiv.Perm.mul_apply, Equiv.Perm.mul_apply, Equiv.swap_apply_left, w3, sB]
            have a := H.m_d (dir := true) (dirW := dirW)
            have b := H.gB_B (dir := true) (dirW := dirW)
            simp only [nextVertex]; rw [a, b]
          · rw [Equiv.Perm.mul_apply, Equiv.Perm.mul_apply, Equiv.swap_apply_of_ne_of_ne c1 n2]
            by_cases c2 : x = ⟨i, li⟩
            · subst c2
              rw [Equiv.swap_apply_left, sA]
              have a := H.i_d (dir := true) (dirW := dirW)
              have b := H.gA_A (dir := true) (dirW := dirW)
              simp only [nextVertex]; rw [a, b]
            · rw [Equiv.swap_apply_of_ne_of_ne c2 n1, (hσ x).1 hV]
              have m1 : x.val ≠ vA := fun e => n1 (Fin.ext e)
              have m2 : x.val ≠ vB := fun e => n2 (Fin.ext e)
              have m3 : x.val ≠ i := fun e => c2 (Fin.ext e)
              have m4 : x.val ≠ m := fun e => c1 (Fin.ext e)
              have hxG := H.topo.vG_mem _ hV OUT
              have a := H.v_other (dir := true) (dirW := dirW) m1 m2 m3 m4
              have e1 : s.vG x.val OUT ≠ s.vG i OUT := H.topo.gV_ne_of_ne hV H.hi m3 OUT
              have e2 : s.vG x.val OUT ≠ s.vG m OUT := H.topo.gV_ne_of_ne hV H.hm m4 OUT
              have b := H.g_other (dir := true) (dirW := dirW) (H.neG H.hgA hxG).symm (H.neG H.hgB hxG).symm e1 e2
              simp only [nextVertex]; rw [a, b]
      · have hx' : x.val ∉ V := fun c => hx (by simp [c])
        rw [Equiv.Perm.mul_apply, Equiv.Perm.mul_apply, (w5 x hx).1, (w5 x hx).2, (hσ x).2 hx']
    · rw [Equiv.Perm.sign_mul, Equiv.Perm.sign_mul, Equiv.Perm.sign_swap (by simpa using nAi.symm),
        Equiv.Perm.sign_swap (by simpa using nBm.symm), hsgn]; simp
  | false =>
    refine ⟨Equiv.swap ⟨i, li⟩ ⟨vA, lA⟩ * Equiv.swap ⟨m, lm⟩ ⟨vB, lB⟩ * σ, ?_, ?_⟩
    · intro x
      refine ⟨fun hx => ?_, fun hx => ?_⟩
      · rcases hcase x hx with rfl | rfl | ⟨hV, n1, n2⟩
        · rw [Equiv.Perm.mul_apply, Equiv.Perm.mul_apply, sA, w1, Equiv.swap_apply_right]
          have a := H.vA_n (dir := false) (dirW := dirW)
          have b := H.gA_i (dir := false) (dirW := dirW)
          simp only [nextVertex]; exact ((congrArg (fun g => (insShape s false dirW i m vA vB gA gB w).gV g true) a).trans b).symm
        · rw [Equiv.Perm.mul_apply, Equiv.Perm.mul_apply, sB, Equiv.swap_apply_right, w2]
          have a := H.vB_n (dir := false) (dirW := dirW)
          have b := H.gB_m (dir := false) (dirW := dirW)
          simp only [nextVertex]; exact ((congrArg (fun g => (insShape s false dirW i m vA vB gA gB w).gV g true) a).trans b).symm
        · have hx1 := (hσ x).1 hV
          have hxG := H.topo.vG_mem _ hV OUT
          have m1 : x.val ≠ vA := fun e => n1 (Fin.ext e)
          have m2 : x.val ≠ vB := fun e => n2 (Fin.ext e)
          have a : (insShape s false dirW i m vA vB gA gB w).vG x.val OUT = s.vG x.val OUT := by
            simp [insShape, upd2_apply, m1, m2]
          rw [Equiv.Perm.mul_apply, Equiv.Perm.mul_apply]
          by_cases c1 : nextVertex s x = m
          · have e : σ x = ⟨m, lm⟩ := Fin.ext (hx1.trans c1)
            have f := (H.next_eq_m hV).1 c1
            rw [e, Equiv.swap_apply_left, w3]
            have b := H.gM_B (dir := false) (dirW := dirW)
            simp only [nextVertex]; rw [a, f]; exact b.symm
          · have q1 := fun f => c1 ((H.next_eq_m hV).2 f)
            have nx : nextVertex s x ∈ V := H.topo.gV_mem _ hxG OUT
            have q5 : σ x ≠ ⟨vB, lB⟩ := by
              intro e; have e := congrArg Fin.val e; rw [hx1] at e; rw [e] at nx; exact H.hB nx
            have q6 : σ x ≠ ⟨vA, lA⟩ := by
              intro e; have e := congrArg Fin.val e; rw [hx1] at e; rw [e] at nx; exact H.hA nx
            have w6 : Equiv.swap (⟨m, lm⟩ : Fin 20) ⟨vB, lB⟩ (σ x) = σ x :=
              Equiv.swap_apply_of_ne_of_ne (fun e => c1 (by rw [← hx1, e])) q5
            rw [w6]
            by_cases c2 : nextVertex s x = i
            · have e : σ x = ⟨i, li⟩ := Fin.ext (hx1.trans c2)
              have f := (H.next_eq_i hV).1 c2
              rw [e, Equiv.swap_apply_left]
              have b := H.gI_A (dir := false) (dirW := dirW)
              simp only [nextVertex]; rw [a, f]; exact b.symm
            · have q2 := fun f => c2 ((H.next_eq_i hV).2 f)
              have w7 : Equiv.swap (⟨i, li⟩ : Fin 20) ⟨vA, lA⟩ (σ x) = σ x :=
                Equiv.swap_apply_of_ne_of_ne (fun e => c2 (by rw [← hx1, e])) q6
              rw [w7, hx1]
              have b := H.g_other (dir := false) (dirW := dirW) (H.neG H.hgA hxG).symm (H.neG H.hgB hxG).symm
                q2 q1
              simp only [nextVertex]; rw [a, b]
      · have hx' : x.val ∉ V := fun c => hx (by simp [c])
        rw [Equiv.Perm.mul_apply, Equiv.Perm.mul_apply, (hσ x).2 hx', (w5 x hx).1, (w5 x hx).2]
    · rw [Equiv.Perm.sign_mul, Equiv.Perm.sign_mul, Equiv.Perm.sign_swap (by simpa using nAi.symm),
        Equiv.Perm.sign_swap (by simpa using nBm.symm), hsgn]; simp

end InsHyp

end

/-! ## The permutation of vertices along the fermion lines -/

section
variable {V G W : Finset ℕ} {s : Shape}

/-- The vertex from which the incoming fermion line of `v` starts. -/
def prevVertex (s : Shape) (v : ℕ) : ℕ := s.gV (s.vG v IN) IN

theorem next_mem (h : TopoOk V G W s) {v : ℕ} (hv : v ∈ V) : nextVertex s v ∈ V :=
  h.gV_mem _ (h.vG_mem v hv OUT) OUT

theorem prev_mem (h : TopoOk V G W s) {v : ℕ} (hv : v ∈ V) : prevVertex s v ∈ V :=
  h.gV_mem _ (h.vG_mem v hv IN) IN

theorem prev_next (h : TopoOk V G W s) {v : ℕ} (hv : v ∈ V) : prevVertex s (nextVertex s v) = v := by
  have e := h.vG_gV _ (h.vG_mem v hv OUT) OUT
  unfold prevVertex nextVertex
  simp only [Bool.not_true] at e
  rw [e]; exact h.gV_vG v hv OUT

theorem next_prev (h : TopoOk V G W s) {v : ℕ} (hv : v ∈ V) : nextVertex s (prevVertex s v) = v := by
  have e := h.vG_gV _ (h.vG_mem v hv IN) IN
  unfold prevVertex nextVertex
  simp only [Bool.not_false] at e
  rw [e]; exact h.gV_vG v hv IN

/-- In a consistent diagram the fermion lines define a permutation of the vertices. -/
theorem loopPerm_exists (h : TopoOk V G W s) (hlt : ∀ v ∈ V, v < MAX_BUNDLE) :
    ∃ σ : Equiv.Perm (Fin MAX_BUNDLE), IsLoopPerm V s σ := by
  classical
  refine ⟨⟨fun v => if hv : v.val ∈ V then ⟨nextVertex s v.val, hlt _ (next_mem h hv)⟩ else v,
    fun v => if hv : v.val ∈ V then ⟨prevVertex s v.val, hlt _ (prev_mem h hv)⟩ else v, ?_, ?_⟩, ?_⟩
  · intro v
    by_cases hv : v.val ∈ V
    · simp [hv, next_mem h hv, prev_next h hv]
    · simp [hv]
  · intro v
    by_cases hv : v.val ∈ V
    · simp [hv, prev_mem h hv, next_prev h hv]
    · simp [hv]
  · intro v
    refine ⟨fun hv => ?_, fun hv => ?_⟩
    · simp [hv]
    · simp [hv]

theorem loopPerm_unique {σ τ : Equiv.Perm (Fin MAX_BUNDLE)} (h1 : IsLoopPerm V s σ) (h2 : IsLoopPerm V s τ) :
    σ = τ := by
  ext v
  by_cases hv : v.val ∈ V
  · rw [(h1 v).1 hv, (h2 v).1 hv]
  · rw [(h1 v).2 hv, (h2 v).2 hv]

theorem SignOk.unique {a b : ℤ} (h1 : SignOk V s a) (h2 : SignOk V s b) : a = b := by
  obtain ⟨σ, hσ, rfl⟩ := h1
  obtain ⟨τ, hτ, rfl⟩ := h2
  rw [loopPerm_unique hσ hτ]

end

/-! ## Hash tables when lines are added and removed -/

theorem addG_ok {G : Finset ℕ} {gK : ℕ → ℤ} {gh : ℤ → Bool} (h : GHashOk G gK gh) {g : ℕ} (hg : g ∉ G) {k : ℤ}
    (hk : InK k) (hn : gh k = false) :
    ∃ gh', addGHash gh k = .ok gh' ∧ GHashOk (insert g G) (upd gK g k) gh' ∧
      ∀ x, x ≠ k → gh' x = gh x := by
  have hfree : ∀ g' ∈ G, gK g' ≠ k := by
    intro g' hg' e
    have := (h.hash k).2 ⟨g', hg', e⟩
    rw [hn] at this; exact absurd this (by simp)
  have hneg : ∀ g' ∈ G, g' ≠ g := fun g' hg' e => hg (e ▸ hg')
  refine ⟨_, addGHash_ok hk hn, ⟨?_, ?_, ?_⟩, ?_⟩
  · intro x hx
    rcases Finset.mem_insert.1 hx with rfl | hx
    · simpa using hk
    · rw [upd_ne _ _ (hneg x hx)]; exact h.mem x hx
  · intro x hx y hy e
    rcases Finset.mem_insert.1 hx with rfl | hx' <;> rcases Finset.mem_insert.1 hy with rfl | hy'
    · rfl
    · rw [upd_same, upd_ne _ _ (hneg y hy')] at e; exact absurd e.symm (hfree y hy')
    · rw [upd_same, upd_ne _ _ (hneg x hx')] at e; exact absurd e (hfree x hx')
    · rw [upd_ne _ _ (hneg x hx'), upd_ne _ _ (hneg y hy')] at e; exact h.inj x hx' y hy' e
  · intro x
    by_cases c : x = k
    · subst c; simp only [if_true, true_iff]
      exact ⟨g, Finset.mem_insert_self _ _, by simp⟩
    · simp only [if_neg c, h.hash x]
      constructor
      · rintro ⟨g', hg', e⟩
        exact ⟨g', Finset.mem_insert_of_mem hg', by rw [upd_ne _ _ (hneg g' hg')]; exact e⟩
      · rintro ⟨g', hg', e⟩
        rcases Finset.mem_insert.1 hg' with rfl | hg'
        · rw [upd_same] at e; exact absurd e.symm c
        · rw [upd_ne _ _ (hneg g' hg')] at e; exact ⟨g', hg', e⟩
  · intro x hx; simp [hx]

theorem addW_ok {W : Finset ℕ} {wK : ℕ → ℤ} {wh : ℤ → Bool} (h : WHashOk W wK wh) {w : ℕ} (hw : w ∉ W) {k : ℤ}
    (hk : InK k) (h0 : k ≠ 0) (hn : wh |k| = false) :
    ∃ wh', addWHash wh k = .ok wh' ∧ WHashOk (insert w W) (upd wK w k) wh' := by
  have hfree : ∀ w' ∈ W, |wK w'| ≠ |k| := by
    intro w' hw' e
    have := (h.hash |k|).2 ⟨w', hw', e⟩
    rw [hn] at this; exact absurd this (by simp)
  have hneg : ∀ w' ∈ W, w' ≠ w := fun w' hw' e => hw (e ▸ hw')
  refine ⟨_, addWHash_ok hk hn, ⟨?_, ?_, ?_, ?_⟩⟩
  · intro x hx
    rcases Finset.mem_insert.1 hx with rfl | hx
    · simpa using hk
    · rw [upd_ne _ _ (hneg x hx)]; exact h.mem x hx
  · intro x hx
    rcases Finset.mem_insert.1 hx with rfl | hx
    · simpa using h0
    · rw [upd_ne _ _ (hneg x hx)]; exact h.ne x hx
  · intro x hx y hy e
    rcases Finset.mem_insert.1 hx with rfl | hx' <;> rcases Finset.mem_insert.1 hy with rfl | hy'
    · rfl
    · rw [upd_same, upd_ne _ _ (hneg y hy')] at e; exact absurd e.symm (hfree y hy')
    · rw [upd_same, upd_ne _ _ (hneg x hx')] at e; exact absurd e (hfree x hx')
    · rw [upd_ne _ _ (hneg x hx'), upd_ne _ _ (hneg y hy')] at e; exact h.inj x hx' y hy' e
  · intro x
    by_cases c : x = |k|
    · subst c; simp only [if_true, true_iff]
      exact ⟨w, Finset.mem_insert_self _ _, by simp⟩
    · simp only [if_neg c, h.hash x]
      constructor
      · rintro ⟨w', hw', e⟩
        exact ⟨w', Finset.mem_insert_of_mem hw', by rw [upd_ne _ _ (hneg w' hw')]; exact e⟩
      · rintro ⟨w', hw', e⟩
        rcases Finset.mem_insert.1 hw' with rfl | hw'
        · rw [upd_same] at e; exact absurd e.symm c
        · rw [upd_ne _ _ (hneg w' hw')] at e; exact ⟨w', hw', e⟩

theorem removeG_ok {G : Finset ℕ} {gK : ℕ → ℤ} {gh : ℤ → Bool} (h : GHashOk G gK gh) {g : ℕ} (hg : g ∈ G) :
    ∃ gh', removeGHash gh (gK g) = .ok gh' ∧ GHashOk (G.erase g) gK gh' := by
  refine ⟨_, removeGHash_ok (h.mem g hg) ((h.hash _).2 ⟨g, hg, rfl⟩), ⟨?_, ?_, ?_⟩⟩
  · exact fun x hx => h.mem x (Finset.mem_of_mem_erase hx)
  · exact fun x hx y hy => h.inj x (Finset.mem_of_mem_erase hx) y (Finset.mem_of_mem_erase hy)
  · intro x
    by_cases c : x = gK g
    · subst c; simp only [if_true, Bool.false_eq_true, false_iff, not_exists, not_and]
      intro y hy e
      exact (Finset.ne_of_mem_erase hy) (h.inj y (Finset.mem_of_mem_erase hy) g hg e)
    · simp only [if_neg c, h.hash x]
      constructor
      · rintro ⟨y, hy, e⟩
        exact ⟨y, Finset.mem_erase.2 ⟨fun e' => c (by rw [← e, e']), hy⟩, e⟩
      · rintro ⟨y, hy, e⟩
        exact ⟨y, Finset.mem_of_mem_erase hy, e⟩

theorem removeW_ok {W : Finset ℕ} {wK : ℕ → ℤ} {wh : ℤ → Bool} (h : WHashOk W wK wh) {w : ℕ} (hw : w ∈ W) :
    ∃ wh', removeWHash wh (wK w) = .ok wh' ∧ WHashOk (W.erase w) wK wh' := by
  refine ⟨_, removeWHash_ok (h.mem w hw) ((h.hash _).2 ⟨w, hw, rfl⟩), ⟨?_, ?_, ?_, ?_⟩⟩
  · exact fun x hx => h.mem x (Finset.mem_of_mem_erase hx)
  · exact fun x hx => h.ne x (Finset.mem_of_mem_erase hx)
  · exact fun x hx y hy => h.inj x (Finset.mem_of_mem_erase hx) y (Finset.mem_of_mem_erase hy)
  · intro x
    by_cases c : x = |wK w|
    · subst c; simp only [if_true, Bool.false_eq_true, false_iff, not_exists, not_and]
      intro y hy e
      exact (Finset.ne_of_mem_erase hy) (h.inj y (Finset.mem_of_mem_erase hy) w hw e)
    · simp only [if_neg c, h.hash x]
      constructor
      · rintro ⟨y, hy, e⟩
        exact ⟨y, Finset.mem_erase.2 ⟨fun e' => c (by rw [← e, e']), hy⟩, e⟩
      · rintro ⟨y, hy, e⟩
        exact ⟨y, Finset.mem_of_mem_erase hy, e⟩

end Feyn
