import Verif.Proof.Add

/-!
# `DeleteInteraction` and `DeleteDeltaInteraction` keep the diagram consistent
-/

set_option linter.unusedSectionVars false
set_option linter.unusedSimpArgs false

namespace Feyn

/-- The connections after the removal of the vertices next to `i` and `m`. -/
def delShape (s : Shape) (dir : Dir) (i m gC gD : ℕ) : Shape :=
  { s with
    vG := upd2 (upd2 s.vG i dir gC) m dir gD
    gV := upd2 (upd2 s.gV gC (!dir) i) gD (!dir) m }

section
variable {V G W : Finset ℕ} {s : Shape} {dir : Dir} {i m vA vB gA gB w gC gD : ℕ}

/-- Names involved in a removal. -/
structure DelHyp (V G W : Finset ℕ) (s : Shape) (dir : Dir) (i m vA vB gA gB w gC gD : ℕ) : Prop where
  topo : TopoOk V G W s
  hi : i ∈ V
  hm : m ∈ V
  hne : i ≠ m
  egA : s.vG i dir = gA
  egB : s.vG m dir = gB
  evA : s.gV gA dir = vA
  evB : s.gV gB dir = vB
  egC : s.vG vA dir = gC
  egD : s.vG vB dir = gD
  ewA : s.vW vA = w
  ewB : s.vW vB = w
  nAi : vA ≠ i
  nAm : vA ≠ m
  nBi : vB ≠ i
  nBm : vB ≠ m

namespace DelHyp
variable (H : DelHyp V G W s dir i m vA vB gA gB w gC gD)
include H

theorem gAG : gA ∈ G := H.egA ▸ H.topo.vG_mem _ H.hi dir
theorem gBG : gB ∈ G := H.egB ▸ H.topo.vG_mem _ H.hm dir
theorem vAV : vA ∈ V := H.evA ▸ H.topo.gV_mem _ H.gAG dir
theorem vBV : vB ∈ V := H.evB ▸ H.topo.gV_mem _ H.gBG dir
theorem gCG : gC ∈ G := H.egC ▸ H.topo.vG_mem _ H.vAV dir
theorem gDG : gD ∈ G := H.egD ▸ H.topo.vG_mem _ H.vBV dir
theorem wW : w ∈ W := H.ewA ▸ H.topo.vW_mem _ H.vAV
theorem vA_n : s.vG vA (!dir) = gA := H.evA ▸ H.topo.vG_gV _ H.gAG dir
theorem vB_n : s.vG vB (!dir) = gB := H.evB ▸ H.topo.vG_gV _ H.gBG dir
theorem gA_i : s.gV gA (!dir) = i := H.egA ▸ H.topo.gV_vG _ H.hi dir
theorem gB_m : s.gV gB (!dir) = m := H.egB ▸ H.topo.gV_vG _ H.hm dir
theorem gC_A : s.gV gC (!dir) = vA := H.egC ▸ H.topo.gV_vG _ H.vAV dir
theorem gD_B : s.gV gD (!dir) = vB := H.egD ▸ H.topo.gV_vG _ H.vBV dir
theorem nAB : vA ≠ vB := by
  intro e; have a := H.vA_n; rw [e, H.vB_n] at a
  have b := H.gA_i; rw [← a, H.gB_m] at b; exact H.hne b.symm
theorem ngAB : gA ≠ gB := by
  intro e; have a := H.gA_i; rw [e, H.gB_m] at a; exact H.hne a.symm
theorem ngAC : gA ≠ gC := by
  intro e; have a := H.gA_i; rw [e, H.gC_A] at a; exact H.nAi a
theorem ngAD : gA ≠ gD := by
  intro e; have a := H.gA_i; rw [e, H.gD_B] at a; exact H.nBi a
theorem ngBC : gB ≠ gC := by
  intro e; have a := H.gB_m; rw [e, H.gC_A] at a; exact H.nAm a
theorem ngBD : gB ≠ gD := by
  intro e; have a := H.gB_m; rw [e, H.gD_B] at a; exact H.nBm a
theorem ngCD : gC ≠ gD := by
  intro e; have a := H.gC_A; rw [e, H.gD_B] at a; exact H.nAB a.symm
theorem gC_nA : s.gV gC dir ≠ vA := by
  intro e; have a := H.topo.vG_gV _ H.gCG dir; rw [e, H.vA_n] at a; exact H.ngAC a
theorem gC_nB : s.gV gC dir ≠ vB := by
  intro e; have a := H.topo.vG_gV _ H.gCG dir; rw [e, H.vB_n] at a; exact H.ngBC a
theorem gD_nA : s.gV gD dir ≠ vA := by
  intro e; have a := H.topo.vG_gV _ H.gDG dir; rw [e, H.vA_n] at a; exact H.ngAD a
theorem gD_nB : s.gV gD dir ≠ vB := by
  intro e; have a := H.topo.vG_gV _ H.gDG dir; rw [e, H.vB_n] at a; exact H.ngBD a
theorem gi_nA : ∀ g ∈ G, g ≠ gA → g ≠ gB → g ≠ gC → g ≠ gD → ∀ e, s.gV g e ≠ vA ∧ s.gV g e ≠ vB := by
  intro g hg n1 n2 n3 n4 e
  have a := H.topo.vG_gV g hg e
  constructor
  · intro q; rw [q] at a
    by_cases c : e = dir
    · subst c; rw [H.vA_n] at a; exact n1 a.symm
    · have : (!e) = dir := by cases e <;> cases dir <;> simp at c ⊢
      rw [this, H.egC] at a; exact n3 a.symm
  · intro q; rw [q] at a
    by_cases c : e = dir
    · subst c; rw [H.vB_n] at a; exact n2 a.symm
    · have : (!e) = dir := by cases e <;> cases dir <;> simp at c ⊢
      rw [this, H.egD] at a; exact n4 a.symm
theorem w_ends : ∀ x ∈ W, x ≠ w → ∀ e, s.wV x e ≠ vA ∧ s.wV x e ≠ vB := by
  intro x hx n e
  have a := H.topo.vW_wV x hx e
  constructor
  · intro q; rw [q, H.ewA] at a; exact n a.symm
  · intro q; rw [q, H.ewB] at a; exact n a.symm
theorem v_w : ∀ v ∈ V, v ≠ vA → v ≠ vB → s.vW v ≠ w := by
  intro v hv n1 n2 e
  have a := H.topo.wV_vW v hv
  have b := H.topo.wV_vW vA H.vAV
  have c := H.topo.wV_vW vB H.vBV
  rw [e] at a; rw [H.ewA] at b; rw [H.ewB] at c
  have hAB := H.nAB
  cases q1 : s.vDir v <;> cases q2 : s.vDir vA <;> cases q3 : s.vDir vB <;> simp only [q1, q2, q3] at a b c <;>
    simp_all
theorem dirB : s.vDir vB = !s.vDir vA := by
  have b := H.topo.wV_vW vA H.vAV
  have c := H.topo.wV_vW vB H.vBV
  rw [H.ewA] at b; rw [H.ewB] at c
  have hAB := H.nAB
  cases q2 : s.vDir vA <;> cases q3 : s.vDir vB <;> simp only [q2, q3] at b c <;> simp_all

local notation "S'" => delShape s dir i m gC gD
local notation "V'" => Finset.erase (Finset.erase V vA) vB
local notation "G'" => Finset.erase (Finset.erase G gA) gB

theorem mV {v : ℕ} : v ∈ V' ↔ v ≠ vB ∧ v ≠ vA ∧ v ∈ V := by simp [Finset.mem_erase]
theorem mG {g : ℕ} : g ∈ G' ↔ g ≠ gB ∧ g ≠ gA ∧ g ∈ G := by simp [Finset.mem_erase]
theorem iV : i ∈ V' := H.mV.2 ⟨H.nBi.symm, H.nAi.symm, H.hi⟩
theorem mV' : m ∈ V' := H.mV.2 ⟨H.nBm.symm, H.nAm.symm, H.hm⟩

theorem C_i : (S').gV gC (!dir) = i := by simp [delShape, upd2_apply, H.ngCD]
theorem C_C : (S').gV gC dir = s.gV gC dir := by simp [delShape, upd2_apply, H.ngCD]
theorem D_m : (S').gV gD (!dir) = m := by simp [delShape, upd2_apply]
theorem D_D : (S').gV gD dir = s.gV gD dir := by simp [delShape, upd2_apply, H.ngCD]
theorem g_other {g : ℕ} (n1 : g ≠ gC) (n2 : g ≠ gD) : (S').gV g = s.gV g := by
  funext e; simp [delShape, upd2_apply, n1, n2]
theorem i_d : (S').vG i dir = gC := by simp [delShape, upd2_apply, H.hne]
theorem i_n : (S').vG i (!dir) = s.vG i (!dir) := by simp [delShape, upd2_apply, H.hne]
theorem m_d : (S').vG m dir = gD := by simp [delShape, upd2_apply]
theorem m_n : (S').vG m (!dir) = s.vG m (!dir) := by simp [delShape, upd2_apply]
theorem v_other {v : ℕ} (n1 : v ≠ i) (n2 : v ≠ m) : (S').vG v = s.vG v := by
  funext e; simp [delShape, upd2_apply, n1, n2]

theorem topo' : TopoOk V' G' (W.erase w) (S') := by
  have h := H.topo
  have hd : ∀ e : Dir, e = dir ∨ e = !dir := by intro e; cases e <;> cases dir <;> simp
  have mv := fun v => (H.mV (v := v))
  have mg := fun g => (H.mG (g := g))
  constructor
  · intro g hg e
    obtain ⟨n1, n2, hg⟩ := (mg g).1 hg
    by_cases c1 : g = gC
    · subst c1
      rcases hd e with rfl | rfl
      · rw [H.C_C]; exact (mv _).2 ⟨H.gC_nB, H.gC_nA, h.gV_mem _ hg _⟩
      · rw [H.C_i]; exact H.iV
    · by_cases c2 : g = gD
      · subst c2
        rcases hd e with rfl | rfl
        · rw [H.D_D]; exact (mv _).2 ⟨H.gD_nB, H.gD_nA, h.gV_mem _ hg _⟩
        · rw [H.D_m]; exact H.mV'
      · rw [H.g_other c1 c2]
        have := H.gi_nA g hg n2 n1 c1 c2 e
        exact (mv _).2 ⟨this.2, this.1, h.gV_mem _ hg _⟩
  · intro g hg e
    obtain ⟨n1, n2, hg⟩ := (mg g).1 hg
    have a1 := h.vG_gV g hg e
    by_cases c1 : g = gC
    · subst c1
      rcases hd e with rfl | rfl
      · rw [H.C_C]
        simp only [delShape, upd2_apply]
        simpa using a1
      · rw [H.C_i, Bool.not_not, H.i_d]
    · by_cases c2 : g = gD
      · subst c2
        rcases hd e with rfl | rfl
        · rw [H.D_D]
          simp only [delShape, upd2_apply]
          simpa using a1
        · rw [H.D_m, Bool.not_not, H.m_d]
      · rw [H.g_other c1 c2]
        by_cases q1 : s.gV g e = i
        · rw [q1] at a1 ⊢
          rcases hd e with rfl | rfl
          · rw [H.i_n]; exact a1
          · rw [Bool.not_not, H.egA] at a1; exact absurd a1.symm n2
        · by_cases q2 : s.gV g e = m
          · rw [q2] at a1 ⊢
            rcases hd e with rfl | rfl
            · rw [H.m_n]; exact a1
            · rw [Bool.not_not, H.egB] at a1; exact absurd a1.symm n1
          · rw [H.v_other q1 q2]; exact a1
  · intro v hv e
    obtain ⟨n1, n2, hv⟩ := (mv v).1 hv
    by_cases q1 : v = i
    · subst q1
      rcases hd e with rfl | rfl
      · rw [H.i_d]; exact (mg _).2 ⟨H.ngBC.symm, H.ngAC.symm, H.gCG⟩
      · rw [H.i_n]
        refine (mg _).2 ⟨?_, ?_, h.vG_mem _ hv _⟩
        · intro c; have := h.gV_vG v hv (!dir); rw [Bool.not_not, c, H.evB] at this; exact n1 this.symm
        · intro c; have := h.gV_vG v hv (!dir); rw [Bool.not_not, c, H.evA] at this; exact n2 this.symm
    · by_cases q2 : v = m
      · subst q2
        rcases hd e with rfl | rfl
        · rw [H.m_d]; exact (mg _).2 ⟨H.ngBD.symm, H.ngAD.symm, H.gDG⟩
        · rw [H.m_n]
          refine (mg _).2 ⟨?_, ?_, h.vG_mem _ hv _⟩
          · intro c; have := h.gV_vG v hv (!dir); rw [Bool.not_not, c, H.evB] at this; exact n1 this.symm
          · intro c; have := h.gV_vG v hv (!dir); rw [Bool.not_not, c, H.evA] at this; exact n2 this.symm
      · rw [H.v_other q1 q2]
        refine (mg _).2 ⟨?_, ?_, h.vG_mem _ hv _⟩
        · intro c; have t := h.gV_vG v hv e; rw [c] at t
          rcases hd e with rfl | rfl
          · rw [H.gB_m] at t; exact q2 t.symm
          · rw [Bool.not_not, H.evB] at t; exact n1 t.symm
        · intro c; have t := h.gV_vG v hv e; rw [c] at t
          rcases hd e with rfl | rfl
          · rw [H.gA_i] at t; exact q1 t.symm
          · rw [Bool.not_not, H.evA] at t; exact n2 t.symm
  · intro v hv e
    obtain ⟨n1, n2, hv⟩ := (mv v).1 hv
    have t := h.gV_vG v hv e
    by_cases q1 : v = i
    · subst q1
      rcases hd e with rfl | rfl
      · rw [H.i_d, H.C_i]
      · rw [H.i_n]
        simp only [delShape, upd2_apply]
        simpa using t
    · by_cases q2 : v = m
      · subst q2
        rcases hd e with rfl | rfl
        · rw [H.m_d, H.D_m]
        · rw [H.m_n]
          simp only [delShape, upd2_apply]
          simpa using t
      · rw [H.v_other q1 q2]
        rcases hd e with rfl | rfl
        · have z1 : s.vG v e ≠ gC := by
            intro c; rw [c, H.gC_A] at t; exact n2 t.symm
          have z2 : s.vG v e ≠ gD := by
            intro c; rw [c, H.gD_B] at t; exact n1 t.symm
          rw [H.g_other z1 z2]; exact t
        · simp only [delShape, upd2_apply]
          simpa using t
  · intro x hx e
    obtain ⟨n, hx⟩ := Finset.mem_erase.1 hx
    have := H.w_ends x hx n e
    exact (mv _).2 ⟨this.2, this.1, h.wV_mem x hx e⟩
  · intro x hx e
    exact h.vW_wV x (Finset.mem_of_mem_erase hx) e
  · intro x hx e
    exact h.vDir_wV x (Finset.mem_of_mem_erase hx) e
  · intro v hv
    obtain ⟨n1, n2, hv⟩ := (mv v).1 hv
    exact Finset.mem_erase.2 ⟨H.v_w v hv n2 n1, h.vW_mem v hv⟩
  · intro v hv
    obtain ⟨n1, n2, hv⟩ := (mv v).1 hv
    exact h.wV_vW v hv

/-- Removing and inserting again gives the connections back. -/
theorem ins_del : insShape (S') dir (s.vDir vA) i m vA vB gA gB w = s := by
  have hB := H.dirB
  have a1 := H.i_d
  have a2 := H.m_d
  have nAB := H.nAB
  have hd : ∀ e : Dir, e = dir ∨ e = !dir := by intro e; cases e <;> cases dir <;> simp
  unfold insShape
  rw [a1, a2]
  obtain ⟨vG, vW, vDir, gV, wV⟩ := s
  simp only [Shape.mk.injEq]
  refine ⟨?_, ?_, ?_, ?_, ?_⟩
  · funext v e
    have b1 := H.egC; have b2 := H.egD; have b3 := H.vA_n; have b4 := H.vB_n
    have b5 := H.egA; have b6 := H.egB
    simp only at b1 b2 b3 b4 b5 b6
    rcases hd e with rfl | rfl
    · simp only [delShape, upd2_apply]; simp; grind
    · simp only [delShape, upd2_apply]; simp; grind
  · funext v
    have b1 := H.ewA; have b2 := H.ewB
    simp only at b1 b2
    simp only [delShape, upd_apply]; grind
  · funext v
    simp only at hB
    simp only [delShape, upd_apply]; grind
  · funext g e
    have b1 := H.gA_i; have b2 := H.evA; have b3 := H.gB_m; have b4 := H.evB
    have b5 := H.gC_A; have b6 := H.gD_B
    have c1 := H.ngAC; have c2 := H.ngAD; have c3 := H.ngBC; have c4 := H.ngBD; have c5 := H.ngAB
    have c6 := H.ngCD
    simp only at b1 b2 b3 b4 b5 b6
    rcases hd e with rfl | rfl
    · simp only [delShape, upd2_apply]; simp; grind
    · simp only [delShape, upd2_apply]; simp; grind
  · funext x e
    have b := H.topo.wV_vW vA H.vAV
    have c := H.topo.wV_vW vB H.vBV
    have b1 := H.ewA; have b2 := H.ewB
    simp only at b c hB b1 b2
    rw [b1] at b; rw [b2, hB] at c
    simp only [delShape, upd2_apply]
    cases q : vDir vA <;> cases e <;> simp [q] at b c ⊢ <;> grind

theorem insHyp : InsHyp V' G' (W.erase w) (S') i m vA vB gA gB w where
  topo := H.topo'
  hi := H.iV
  hm := H.mV'
  hne := H.hne
  hA := by simp
  hB := by simp
  hAB := H.nAB
  hgA := by simp
  hgB := by simp
  hgAB := H.ngAB
  hw := by simp

theorem V_eq : insert vB (insert vA V') = V := by
  have := H.vAV; have := H.vBV; have := H.nAB
  ext v; simp only [Finset.mem_insert, Finset.mem_erase]; grind

theorem sign' (hlt : ∀ v ∈ V, v < MAX_BUNDLE) {sfl : ℤ} (hs : SignOk V s sfl) :
    SignOk V' (S') sfl := by
  obtain ⟨σ, hσ⟩ := loopPerm_exists H.topo' (fun v hv => hlt v (H.mV.1 hv).2.2)
  have h1 : SignOk V' (S') (-(Equiv.Perm.sign σ : ℤ)) := ⟨σ, hσ, rfl⟩
  have h2 := H.insHyp.sign' (dir := dir) (dirW := s.vDir vA) (by rw [H.V_eq]; exact hlt) h1
  rw [H.V_eq, H.ins_del] at h2
  rw [hs.unique h2]; exact h1

end DelHyp
end

section
variable {Q F : Type} [Field Q] [LinearOrder Q] [IsStrictOrderedRing Q] [Field F]

/-- The product of weights after a removal. -/
theorem total_del {G W : Finset ℕ} {gw ww : ℕ → F} {sfl : ℤ} {N : ℕ} {gA gB gC gD w : ℕ} {a b : F}
    (hN : N ≠ 0)
    (hA : gA ∈ G) (hB : gB ∈ G) (hAB : gA ≠ gB) (hC : gC ∈ G) (hD : gD ∈ G) (hCD : gC ≠ gD) (hw : w ∈ W)
    (hAC : gA ≠ gC) (hAD : gA ≠ gD) (hBC : gB ≠ gC) (hBD : gB ≠ gD)
    (h1 : gw gA ≠ 0) (h2 : gw gB ≠ 0) (h3 : gw gC ≠ 0) (h4 : gw gD ≠ 0) (h5 : ww w ≠ 0) :
    totalWeight ((G.erase gA).erase gB) (W.erase w)
      ⟨upd (upd gw gC a) gD b, ww⟩ sfl (N - 1) =
    totalWeight G W ⟨gw, ww⟩ sfl N * ((-1) * a * b / (gw gA * gw gB * gw gC * gw gD * ww w)) := by
  have v1 : upd gw gC a gD = gw gD := upd_ne _ _ hCD.symm
  rw [total_updG (by simp [hD, hBD.symm, hAD.symm]) (by rw [v1]; exact h4),
    total_updG (by simp [hC, hBC.symm, hAC.symm]) h3, v1]
  unfold totalWeight
  obtain ⟨n, rfl⟩ : ∃ n, N = n + 1 := ⟨N - 1, by omega⟩
  rw [← Finset.mul_prod_erase G gw hA, ← Finset.mul_prod_erase (G.erase gA) gw (a := gB) (by simp [hB, hAB.symm]),
    ← Finset.mul_prod_erase W ww hw]
  simp only [Nat.add_sub_cancel, pow_succ]
  field_simp

theorem delCore_good {P : Params Q F} (hP : P.Wf) {d : Diag Q F} (h : Inv P d)
    (hmin : 1 < d.order) (hw : d.worm.exist = true) {isDelta : Bool} {dir : Dir} {u : Q}
    (hu : 0 ≤ u) :
    Good P d (delCore P d isDelta dir u) := by
  have ho : d.order ≠ 0 := by omega
  have hI := h.worm.ira_mem hw
  have hM := h.worm.masha_mem hw
  have hne := h.worm.ne hw
  have hg1 := h.topo.vG_mem _ hI dir
  have hg2 := h.topo.vG_mem _ hM dir
  have hA := h.topo.gV_mem _ hg1 dir
  have hB := h.topo.gV_mem _ hg2 dir
  have hwA := h.topo.vW_mem _ hA
  have hg3 := h.topo.vG_mem _ hA dir
  have hg4 := h.topo.vG_mem _ hB dir
  have hC := h.topo.gV_mem _ hg3 dir
  have hD := h.topo.gV_mem _ hg4 dir
  have hoe : d.order = d.W.avail := h.order_eq ho
  have hnle := h.count.n_le
  unfold delCore
  simp only [deref_live hI, deref_live hM, deref_live hg1, deref_live hg2, deref_live hA, deref_live hB,
    deref_live hg3, deref_live hg4, deref_live hC, deref_live hD, deref_live hwA, Res.ok_bind]
  generalize egA : d.sh.vG d.worm.ira dir = gA at *
  generalize egB : d.sh.vG d.worm.masha dir = gB at *
  generalize evA : d.sh.gV gA dir = vA at *
  generalize evB : d.sh.gV gB dir = vB at *
  by_cases c1 : (d.fl.gMeas gA || d.fl.gGam gA) = true
  · rw [if_pos c1]; exact good_skip h
  rw [if_neg c1]
  by_cases c2 : (d.fl.gMeas gB || d.fl.gGam gB) = true
  · rw [if_pos c2]; exact good_skip h
  rw [if_neg c2]
  by_cases c3 : d.co.spin vA IN ≠ d.co.spin vA OUT
  · rw [if_pos c3]; exact good_skip h
  rw [if_neg c3]
  by_cases c4 : d.co.spin vB IN ≠ d.co.spin vB OUT
  · rw [if_pos c4]; exact good_skip h
  rw [if_neg c4]
  by_cases c5 : d.sh.vW vA ≠ d.sh.vW vB
  · rw [if_pos c5]; exact good_skip h
  rw [if_neg c5]
  generalize ew : d.sh.vW vA = w at *
  by_cases c6 : (d.fl.wMeas w || d.fl.wWorm w || (d.fl.wDelta w != isDelta) || d.fl.wGam w) = true
  · rw [if_pos c6]; exact good_skip h
  rw [if_neg c6]
  generalize egC : d.sh.vG vA dir = gC at *
  generalize egD : d.sh.vG vB dir = gD at *
  generalize evC : d.sh.gV gC dir = vC at *
  generalize evD : d.sh.gV gD dir = vD at *
  by_cases c7 : d.co.r vA ≠ d.co.r vC
  · rw [if_pos c7]; exact good_skip h
  rw [if_neg c7]
  by_cases c8 : d.co.r vB ≠ d.co.r vD
  · rw [if_pos c8]; exact good_skip h
  rw [if_neg c8]
  simp only [ne_eq, not_not, Bool.not_eq_true, Bool.or_eq_false_iff] at c1 c2 c3 c4 c5 c6 c7 c8
  -- the removed vertices are not worm ends
  have hnw : ∀ v ∈ d.Ver.live, d.sh.vW v = w → v ≠ d.worm.ira ∧ v ≠ d.worm.masha := by
    intro v hv e
    have fl := h.worm.flag w hwA
    rw [c6.1.1.2] at fl
    have hno : ¬ (d.worm.exist = true ∧ ∃ e, d.sh.wV w e = d.worm.ira ∨ d.sh.wV w e = d.worm.masha) :=
      fun q => absurd (fl.2 q) (by simp)
    have hv1 := h.topo.wV_vW v hv
    rw [e] at hv1
    exact ⟨fun q => hno ⟨hw, d.sh.vDir v, Or.inl (hv1.trans q)⟩, fun q => hno ⟨hw, d.sh.vDir v, Or.inr (hv1.trans q)⟩⟩
  have H : DelHyp d.Ver.live d.G.live d.W.live d.sh dir d.worm.ira d.worm.masha vA vB gA gB w gC gD :=
    { topo := h.topo, hi := hI, hm := hM, hne := hne, egA := egA, egB := egB, evA := evA, evB := evB
      egC := egC, egD := egD, ewA := ew, ewB := c5.symm
      nAi := (hnw vA hA ew).1, nAm := (hnw vA hA ew).2, nBi := (hnw vB hB c5.symm).1
      nBm := (hnw vB hB c5.symm).2 }
  have htopo := H.topo'
  obtain ⟨rwN, hrwN⟩ := orderRW_ok hP (show d.order - 1 ≤ P.maxOrd by omega)
  obtain ⟨rwO, hrwO⟩ := orderRW_ok hP (show d.order ≤ P.maxOrd by omega)
  simp only [hrwN, hrwO, Res.ok_bind]
  set S' := delShape d.sh dir d.worm.ira d.worm.masha gC gD with hS'
  have hLC := gW_line S' gC dir P d.ext d.co.r d.co.tau d.co.spin (d.fl.gMeas gC) (d.fl.gGam gC)
  have hLD := gW_line S' gD dir P d.ext d.co.r d.co.tau d.co.spin (d.fl.gMeas gD) (d.fl.gGam gD)
  have C_i : S'.gV gC (!dir) = d.worm.ira := H.C_i
  have C_C : S'.gV gC dir = vC := H.C_C.trans evC
  have D_m : S'.gV gD (!dir) = d.worm.masha := H.D_m
  have D_D : S'.gV gD dir = vD := H.D_D.trans evD
  rw [C_i, C_C] at hLC
  rw [D_m, D_D] at hLD
  rw [hLC, hLD]
  clear hLC hLD
  generalize hXC : gW0 P d.ext (d.co.r (S'.gV gC IN)) _ _ _ _ _ _ _ = XC
  generalize hXD : gW0 P d.ext (d.co.r (S'.gV gD IN)) _ _ _ _ _ _ _ = XD
  refine good_metropolis h (h.order_lt hP) fun hacc => ?_
  have hr := ratio_ne_zero hu hacc
  have hneC : XC ≠ 0 := by rintro rfl; simp at hr
  have hneD : XD ≠ 0 := by rintro rfl; simp at hr
  have hweight := h.weight
  rw [if_neg ho] at hweight
  obtain ⟨ver1, ev1, wf1, live1, av1⟩ := Bundle.remove_spec h.count.verWf hA
  obtain ⟨ver2, ev2, wf2, live2, av2⟩ := Bundle.remove_spec wf1 (p := vB) (by
    rw [live1]; simp [hB, H.nAB.symm])
  obtain ⟨gb1, eg1, wfg1, liveg1, avg1⟩ := Bundle.remove_spec h.count.gWf hg1
  obtain ⟨gb2, eg2, wfg2, liveg2, avg2⟩ := Bundle.remove_spec wfg1 (p := gB) (by
    rw [liveg1]; simp [hg2, H.ngAB.symm])
  obtain ⟨wb1, ew1, wfw1, livew1, avw1⟩ := Bundle.remove_spec h.count.wWf hwA
  rw [live1] at live2
  rw [liveg1] at liveg2
  obtain ⟨gh1, egh1, hgh1⟩ := removeG_ok h.ghash hg1
  obtain ⟨gh2, egh2, hgh2⟩ := removeG_ok hgh1 (g := gB) (by simp [hg2, H.ngAB.symm])
  obtain ⟨wh, ewh, hwh⟩ := removeW_ok h.whash hwA
  simp only [ev1, ev2, eg1, eg2, ew1, egh1, egh2, ewh, Res.ok_bind]
  refine ⟨_, rfl, ?_⟩
  have memG : ∀ {g}, g ∈ gb2.live ↔ g ≠ gB ∧ g ≠ gA ∧ g ∈ d.G.live := by
    intro g; rw [liveg2]; exact H.mG
  have memW : ∀ {x}, x ∈ wb1.live ↔ x ≠ w ∧ x ∈ d.W.live := by
    intro x; rw [livew1]; simp
  have memV : ∀ {v}, v ∈ ver2.live ↔ v ≠ vB ∧ v ≠ vA ∧ v ∈ d.Ver.live := by
    intro v; rw [live2]; exact H.mV
  have hcv := h.count.ver
  have hcg := h.count.g
  exact {
    count := {
      verWf := wf2
      gWf := wfg2
      wWf := wfw1
      n_pos := by simp only; omega
      n_le := by simp only; omega
      ver := by simp only; omega
      g := by simp only; omega
      order := Or.inl (by simp only; omega) }
    topo := by rw [live2, liveg2, livew1]; exact htopo
    kcons := by
      intro v hv
      obtain ⟨q1, q2, hv'⟩ := memV.1 hv
      have hc := h.kcons v hv'
      have hcA := h.kcons vA hA
      have hcB := h.kcons vB hB
      have hd1 := addK_dvd d.worm.k (mulK (sgn (d.sh.vDir vA)) (d.mo.wK w))
      have hd2 := mulK_dvd (sgn (d.sh.vDir vA)) (d.mo.wK w)
      unfold KConserved at hc hcA hcB
      have hB' := H.dirB
      simp only [hw, true_and] at hc hcA hcB
      rw [if_neg H.nAi, if_neg H.nAm, ew] at hcA
      rw [if_neg H.nBi, if_neg H.nBm, ← c5, hB'] at hcB
      have vAn := H.vA_n
      have vBn := H.vB_n
      show (MOD_K) ∣ d.mo.gK (S'.vG v IN) - d.mo.gK (S'.vG v OUT) - sgn (d.sh.vDir v) * d.mo.wK (d.sh.vW v)
        - (if d.worm.exist = true ∧ v = d.worm.ira then addK d.worm.k (mulK (sgn (d.sh.vDir vA)) (d.mo.wK w)) else 0)
        + (if d.worm.exist = true ∧ v = d.worm.masha then addK d.worm.k (mulK (sgn (d.sh.vDir vA)) (d.mo.wK w)) else 0)
      simp only [hw, true_and]
      generalize d.sh.vDir vA = dA at hd1 hd2 hcA hcB ⊢
      by_cases n1 : v = d.worm.ira
      · have a1 : S'.vG v dir = gC := n1 ▸ H.i_d
        have a2 : S'.vG v (!dir) = d.sh.vG v (!dir) := n1 ▸ H.i_n
        have n2 : v ≠ d.worm.masha := n1 ▸ hne
        rw [← n1] at egA
        rw [if_pos n1, if_neg n2] at hc ⊢
        cases dir <;> simp only [Bool.not_false, Bool.not_true] at a1 a2 vAn vBn <;>
          rw [a1, a2] <;> rw [egA] at hc <;> rw [vAn, egC] at hcA <;>
          cases dA <;> simp only [sgn_false, sgn_true, mul_one, mul_neg, Bool.not_false, Bool.not_true,
            one_mul, neg_mul, neg_neg] at hd1 hd2 hcA ⊢ <;> omega
      · by_cases n2 : v = d.worm.masha
        · have a1 : S'.vG v dir = gD := n2 ▸ H.m_d
          have a2 : S'.vG v (!dir) = d.sh.vG v (!dir) := n2 ▸ H.m_n
          rw [← n2] at egB
          rw [if_neg n1, if_pos n2] at hc ⊢
          cases dir <;> simp only [Bool.not_false, Bool.not_true] at a1 a2 vAn vBn <;>
            rw [a1, a2] <;> rw [egB] at hc <;> rw [vBn, egD] at hcB <;>
            cases dA <;> simp only [sgn_false, sgn_true, mul_one, mul_neg, Bool.not_false, Bool.not_true,
              one_mul, neg_mul, neg_neg] at hd1 hd2 hcB ⊢ <;> omega
        · have a1 : S'.vG v = d.sh.vG v := H.v_other n1 n2
          rw [a1]
          rw [if_neg n1, if_neg n2] at hc ⊢
          exact hc
    ghash := by rw [liveg2]; exact hgh2
    whash := by rw [livew1]; exact hwh
    spin := by
      intro g hg
      obtain ⟨q1, q2, hg'⟩ := memG.1 hg
      show d.co.spin (S'.gV g IN) OUT = d.co.spin (S'.gV g OUT) IN
      have main : d.co.spin (S'.gV g dir) (!dir) = d.co.spin (S'.gV g (!dir)) dir := by
        have cA : ∀ e e', d.co.spin vA e = d.co.spin vA e' := by
          intro e e'; cases e <;> cases e' <;> simp [c3]
        have cB : ∀ e e', d.co.spin vB e = d.co.spin vB e' := by
          intro e e'; cases e <;> cases e' <;> simp [c4]
        have key : ∀ g ∈ d.G.live, d.co.spin (d.sh.gV g dir) (!dir) = d.co.spin (d.sh.gV g (!dir)) dir := by
          intro g hg
          have a := spin_end h.spin hg dir
          have b := spin_end h.spin hg (!dir)
          rw [Bool.not_not] at b
          rw [a, b]
        by_cases n1 : g = gC
        · subst n1
          have k1 := key g hg'
          have k2 := key gA hg1
          rw [evC, H.gC_A] at k1
          rw [evA, H.gA_i] at k2
          rw [C_C, C_i, k1, ← k2]; exact cA _ _
        · by_cases n2 : g = gD
          · subst n2
            have k1 := key g hg'
            have k2 := key gB hg2
            rw [evD, H.gD_B] at k1
            rw [evB, H.gB_m] at k2
            rw [D_D, D_m, k1, ← k2]; exact cB _ _
          · have : S'.gV g = d.sh.gV g := H.g_other n1 n2
            rw [this]; exact key g hg'
      cases dir
      · exact main
      · exact main.symm
    worm := {
      ira_mem := fun _ => memV.2 ⟨H.nBi.symm, H.nAi.symm, hI⟩
      masha_mem := fun _ => memV.2 ⟨H.nBm.symm, H.nAm.symm, hM⟩
      ne := h.worm.ne
      masha_dir := h.worm.masha_dir
      k_in := fun _ => addK_in (h.worm.k_in hw) (mulK_sgn_in _ (h.whash.mem w hwA))
      dSpin := h.worm.dSpin
      wt := h.worm.wt
      flag := fun x hx => h.worm.flag x (memW.1 hx).2 }
    meas := {
      g_mem := by
        intro c
        have m' := h.meas.g_mem c
        have f' := (h.meas.g_flag _ m').2 ⟨c, rfl⟩
        refine memG.2 ⟨?_, ?_, m'⟩
        · intro e; dsimp only at e; rw [e, c2.1] at f'; exact absurd f' (by simp)
        · intro e; dsimp only at e; rw [e, c1.1] at f'; exact absurd f' (by simp)
      w_mem := by
        intro c
        have m' := h.meas.w_mem c
        have f' := (h.meas.w_flag _ m').2 ⟨c, rfl⟩
        refine memW.2 ⟨?_, m'⟩
        intro e; dsimp only at e; rw [e, c6.1.1.1] at f'; exact absurd f' (by simp)
      g_flag := fun g hg => h.meas.g_flag g (memG.1 hg).2.2
      w_flag := fun x hx => h.meas.w_flag x (memW.1 hx).2 }
    delta := fun x hx => h.delta x (memW.1 hx).2
    gamma := {
      le := h.gamma.le
      g_flag := fun g hg => h.gamma.g_flag g (memG.1 hg).2.2
      w_flag := fun x hx => h.gamma.w_flag x (memW.1 hx).2
      g_ex := by
        intro c
        obtain ⟨g', m', f'⟩ := h.gamma.g_ex c
        refine ⟨g', memG.2 ⟨?_, ?_, m'⟩, f'⟩
        · intro e; rw [e, c2.2] at f'; exact absurd f' (by simp)
        · intro e; rw [e, c1.2] at f'; exact absurd f' (by simp)
      w_ex := by
        intro c
        obtain ⟨x', m', f'⟩ := h.gamma.w_ex c
        refine ⟨x', memW.2 ⟨?_, m'⟩, f'⟩
        intro e; rw [e, c6.2] at f'; exact absurd f' (by simp)
      g_meas := fun g hg => h.gamma.g_meas g (memG.1 hg).2.2
      w_meas := fun x hx => h.gamma.w_meas x (memW.1 hx).2 }
    dom := fun v hv => h.dom v (memV.1 hv).2.2
    ext := h.ext
    line := {
      g_eq := by
        intro g hg
        obtain ⟨q1, q2, hg'⟩ := memG.1 hg
        show upd (upd d.wt.gWt gC XC) gD XD g = gExpected P S' d.co d.fl d.ext g
        by_cases n2 : g = gD
        · subst n2; rw [upd_same, ← hXD]; rfl
        · by_cases n1 : g = gC
          · subst n1; rw [upd_ne _ _ n2, upd_same, ← hXC]; rfl
          · have : S'.gV g = d.sh.gV g := H.g_other n1 n2
            rw [upd_ne _ _ n2, upd_ne _ _ n1, h.line.g_eq g hg']
            simp only [gExpected, this]
      w_eq := fun x hx => h.line.w_eq x (memW.1 hx).2
      g_ne := by
        intro g hg
        simp only [upd_apply]
        split_ifs
        · exact hneD
        · exact hneC
        · exact h.line.g_ne g (memG.1 hg).2.2
      w_ne := fun x hx => h.line.w_ne x (memW.1 hx).2 }
    weight := by
      have : d.order - 1 ≠ 0 := by omega
      simp only [if_neg this]
      rw [avw1, liveg2, livew1, total_del (by omega) hg1 hg2 H.ngAB hg3 hg4 H.ngCD hwA H.ngAC H.ngAD H.ngBC H.ngBD
        (h.line.g_ne _ hg1) (h.line.g_ne _ hg2) (h.line.g_ne _ hg3) (h.line.g_ne _ hg4) (h.line.w_ne _ hwA), hweight]
    phase := by simp only [h.phase, map_mul]
    sign := by
      have := H.sign' (fun v hv => Bundle.live_lt hv) h.sign
      rw [live2]; exact this }

end
end Feyn
